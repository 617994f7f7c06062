import Verif.Parse.RoundViol
import Verif.Parse.Bound

/-!
# Printing and reading back: lets that are kept (C41)

`src/expr_parser.cpp:355-377` (the head `let`), `613-619` (a let variable), `src/base_parser.cpp:1607-1723` (`parsePreservingLet`),
`src/op_parser.cpp:579-615` (`mkLetBindVar`, `mkLetBindVarList`, `mkLetChain`).

With `parsing_preserve_let`, the default, a let becomes a `LET_CHAIN` node: a list of variables for each level, and the body.  `buildP`
carries out the calls of a tree in this mode.  The state is the number of outermost lets read so far and the variables of the current one.
-/

namespace SMT.Parse
open SMT SMT.Text SMT.Lex SMT.Kinds SMT.Sorts SMT.Print

set_option linter.unusedSimpArgs false
set_option linter.unusedVariables false

/-! ## The model -/

/-- `preserving_let_counter`, and the entries of `preserving_let_key_map` whose keys have the current suffix.  The others are never looked up
again: the counter only grows. -/
structure LSt where
  counter : Nat
  lets : Names

/-- the let variables that are looked up: those of the current let, inside a let (`src/expr_parser.cpp:615`) -/
def LSt.seen (d : Bool) (st : LSt) : Names := if d then st.lets else []

/-- `mkLetBindVar(name + suffix, expr)` (`src/op_parser.cpp:579-592`): an entry that is there is returned -/
def bindVar (st : LSt) (name : List Char) (x : N) : N × LSt :=
  match st.lets.lookup name with
  | some (.val v) => (v, st)
  | _ =>
    let v : N := .mk .LET_BIND_VAR (name ++ letSuffix ++ dec st.counter) x.sort [x]
    (v, { st with lets := (name, .val v) :: st.lets })

/-- `mkLetBindVarList` (`src/op_parser.cpp:594-600`): the first element of an empty vector is undefined behaviour -/
def bindList : List N → Res N
  | [] => .ub
  | v :: vs => .ok (.mk .LET_BIND_VAR_LIST [] v.sort (v :: vs))

/-- the node of an expression read: itself, or `mkLetChain` of the levels and the body (`src/op_parser.cpp:602-615`) -/
def close : List N × N → N
  | ([], b) => b
  | (l :: ls, b) => .mk .LET_CHAIN [] b.sort (l :: ls ++ [b])

/-- the state when a let starts: an outermost let gets a new number (`src/expr_parser.cpp:358-363`) -/
def LSt.enter (d : Bool) (st : LSt) : LSt := if d then st else ⟨st.counter + 1, []⟩

mutual
/-- The calls carried out, lets being kept; `d` says whether the tree is below a let.  The result is given in parts: the levels of the let
the tree is, and the body; a let that is the body of a let goes on with the same chain (`src/base_parser.cpp:1684-1693`). -/
def buildC (I : Ctors) (d : Bool) (sc : Names) (st : LSt) : T (Option D) → Res ((List N × N) × LSt)
  | .mk tag cs =>
    match tag with
    | .sym s ph => do
      let n ← I.leaf (st.seen d ++ sc) s ph
      return (([], n), st)
    | .app op n => do
      let (xs, st) ← buildPL I d sc st cs
      let r ← callOper I op (xs.take n) (xs.drop n)
      return (([], r), st)
    | .quant h vs => do
      let (xs, st) ← buildPL I d (vs.reverse.map (fun v => (v.1, .var v.2)) ++ sc) st cs
      match xs with
      | [b] => do
        let r ← I.quant h vs b
        return (([], r), st)
      | _ => .ub
    | .lets ns => buildLv I sc (st.enter d) [] ns cs
    | .bv n w => do
      let r ← I.bv n w
      return (([], r), st)
    | .fpc w e s => do
      let r ← I.fpc w e s
      return (([], r), st)
    | .fp => do
      let (xs, st) ← buildPL I d sc st cs
      let r ← I.fp xs
      return (([], r), st)
    | .constArr s => do
      let (xs, st) ← buildPL I d sc st cs
      match xs with
      | [v] => do
        let r ← I.constArr s v
        return (([], r), st)
      | _ => .ub
    | .asArray a => do
      let r ← I.asArray a
      return (([], r), st)
    | .named _ => do
      let (xs, st) ← buildPL I d sc st cs
      match xs with
      | [b] => return (([], b), st)
      | _ => .ub
    | .rootObj i => do
      let (xs, st) ← buildPL I d sc st cs
      match xs with
      | [e] => do
        let r ← I.rootObj e i
        return (([], r), st)
      | _ => .ub
    | .rootInt => do
      let (xs, st) ← buildPL I d sc st cs
      let r ← I.rootInt xs
      return (([], r), st)
    | .ran => do
      let (xs, st) ← buildPL I d sc st cs
      let r ← I.ran xs
      return (([], r), st)
/-- the calls of a list -/
def buildPL (I : Ctors) (d : Bool) (sc : Names) (st : LSt) : List (T (Option D)) → Res (List N × LSt)
  | [] => .ok ([], st)
  | t :: ts => do
    let (x, st) ← buildC I d sc st t
    let (xs, st) ← buildPL I d sc st ts
    return (close x :: xs, st)
/-- the bindings of a level, those made so far being `vars`, and the rest of the chain -/
def buildLv (I : Ctors) (sc : Names) (st : LSt) (vars : List N) : List (List Char) → List (T (Option D)) → Res ((List N × N) × LSt)
  | n :: ns, v :: vs => do
    let (x, st) ← buildC I true sc st v
    buildLv I sc (bindVar st n (close x)).2 (vars ++ [(bindVar st n (close x)).1]) ns vs
  | [], b :: _ => do
    let l ← bindList vars
    let (c, st) ← buildC I true sc st b
    return ((l :: c.1, c.2), st)
  | _, [] => .ub
end

/-- the node of a tree of calls, lets being kept -/
def buildP (I : Ctors) (d : Bool) (sc : Names) (st : LSt) (t : T (Option D)) : Res (N × LSt) := do
  let (x, st) ← buildC I d sc st t
  return (close x, st)

/-! ## Specification -/

/-- the node of a let variable: the mark of the let it belongs to after its name, its value as child -/
def letVar (c : Nat) (name : List Char) (x : N) : N := .mk .LET_BIND_VAR (name ++ letSuffix ++ dec c) x.sort [x]

/-- the indices and the operands of an indexed operator, as they are written -/
def parted (k : K) : List N → Option (List N × List N)
  | [a, b] => if k ∈ [K.BV_REPEAT, .BV_ZERO_EXT, .BV_SIGN_EXT, .BV_ROTATE_LEFT, .BV_ROTATE_RIGHT] then some ([b], [a]) else none
  | [a, b, c] =>
    if k ∈ [K.BV_EXTRACT, .REG_LOOP] then some ([b, c], [a])
    else if k ∈ [K.FP_TO_UBV, .FP_TO_SBV] then some ([c], [a, b])
    else if k = .FP_TO_FP then some ([a, b], [c])
    else none
  | [a, b, c, e] => if k = .FP_TO_FP then some ([a, b], [c, e]) else none
  | _ => none

mutual
/-- every node is what its constructor returns for its parts, in the order of the text; `st` and `st'` are the state of the lets before and
after, `xs` the names bound by lets in the order of the text -/
inductive MadeP (I : Ctors) (decl : Decl) : Bool → Names → LSt → N → LSt → List (List Char) → Prop where
  /-- a node written as one word; a let variable is one of the current let -/
  | word {d sc st n w} : wordOf n = some w → Tok w → I.leaf (st.seen d ++ sc) w false = .ok n → MadeP I decl d sc st n st []
  /-- a negative number `(- n)` -/
  | neg {d sc st s ds m} : numeric s = true → Tok ds → I.leaf (st.seen d ++ sc) ds false = .ok m →
      I.op .NEG [m] = .ok (.mk .CONST ('-' :: ds) s []) → MadeP I decl d sc st (.mk .CONST ('-' :: ds) s []) st []
  /-- a floating-point number `(fp s e m)` -/
  | parts {d sc st st' s cs xs} : cs.length = 3 → MadePL I decl d sc st cs st' xs →
      I.fp cs = .ok (.mk .CONST cs!"(fp_bit_representation)" s cs) →
      MadeP I decl d sc st (.mk .CONST cs!"(fp_bit_representation)" s cs) st' xs
  /-- a special floating-point value `(_ +oo e s)` -/
  | special {d sc st k w g e m s} : form k = .special w → g ∈ fpNames → Num64 e → Num64 m →
      I.fpc g (undec e) (undec m) = .ok (.mk k (cs!"(_ " ++ g ++ cs!" " ++ e ++ cs!" " ++ m ++ cs!")") s []) →
      MadeP I decl d sc st (.mk k (cs!"(_ " ++ g ++ cs!" " ++ e ++ cs!" " ++ m ++ cs!")") s []) st []
  /-- an operator -/
  | app {d sc st st' k name s cs xs} : takes k cs.length → MadePL I decl d sc st cs st' xs → I.op k cs = .ok (.mk k name s cs) →
      MadeP I decl d sc st (.mk k name s cs) st' xs
  /-- an indexed operator -/
  | indexed {d sc st st1 st' k name s cs us vs xs ys} : parted k cs = some (us, vs) → MadePL I decl d sc st us st1 xs →
      MadePL I decl d sc st1 vs st' ys → I.op k cs = .ok (.mk k name s cs) → MadeP I decl d sc st (.mk k name s cs) st' (xs ++ ys)
  /-- a constant array -/
  | constArr {d sc st st' name s e v xs} : SortOf decl (sortSexp s) e → Toks (sortSexp s) → MadeP I decl d sc st v st' xs →
      I.constArr (some e) v = .ok (.mk .CONST_ARRAY name s [v]) → MadeP I decl d sc st (.mk .CONST_ARRAY name s [v]) st' xs
  /-- a quantifier -/
  | quant {d sc st st' k op name s b vs ds xs} : form k = .quant op → QVars decl vs ds → MadeP I decl d (scopeOf ds ++ sc) st b st' xs →
      I.quant op (ds.map fun v => (v.1, some v.2)) b = .ok (.mk k name s (b :: vs)) → MadeP I decl d sc st (.mk k name s (b :: vs)) st' xs
  /-- a call of a defined function; the first child is its body -/
  | call {d sc st st' k name s b cs xs} : form k = .call → cs ≠ [] → I.isFun name = true → Tok name → name ∉ reserved →
      fast.lookup name = none → MadePL I decl d sc st cs st' xs → I.apply name cs = .ok (.mk k name s (b :: cs)) →
      MadeP I decl d sc st (.mk k name s (b :: cs)) st' xs
  /-- a call of a declared function -/
  | ufCall {d sc st st' k name s cs xs} : form k = .ufCall → cs ≠ [] → I.isFun name = true → Tok name → name ∉ reserved →
      fast.lookup name = none → MadePL I decl d sc st cs st' xs → I.apply name cs = .ok (.mk k name s cs) →
      MadeP I decl d sc st (.mk k name s cs) st' xs
  /-- lets: a list of variables for each level and the body, which is no let -/
  | chain {d sc st st' l ls b xs} : MadeCh I decl sc (st.enter d) (l :: ls) b st' xs →
      MadeP I decl d sc st (.mk .LET_CHAIN [] b.sort (l :: ls ++ [b])) st' xs
/-- the same for a list of nodes -/
inductive MadePL (I : Ctors) (decl : Decl) : Bool → Names → LSt → List N → LSt → List (List Char) → Prop where
  | nil {d sc st} : MadePL I decl d sc st [] st []
  | cons {d sc st st1 st' n ns xs ys} : MadeP I decl d sc st n st1 xs → MadePL I decl d sc st1 ns st' ys →
      MadePL I decl d sc st (n :: ns) st' (xs ++ ys)
/-- the levels of a let and its body -/
inductive MadeCh (I : Ctors) (decl : Decl) : Names → LSt → List N → N → LSt → List (List Char) → Prop where
  | last {sc st st1 st' v vs b ns xs ys} : MadeBs I decl sc st (v :: vs) st1 ns xs → b.kind ≠ .LET_CHAIN →
      MadeP I decl true sc st1 b st' ys →
      MadeCh I decl sc st [.mk .LET_BIND_VAR_LIST [] v.sort (v :: vs)] b st' ((ns ++ xs) ++ ys)
  | level {sc st st1 st' v vs l ls b ns xs ys} : MadeBs I decl sc st (v :: vs) st1 ns xs → MadeCh I decl sc st1 (l :: ls) b st' ys →
      MadeCh I decl sc st (.mk .LET_BIND_VAR_LIST [] v.sort (v :: vs) :: l :: ls) b st' ((ns ++ xs) ++ ys)
/-- the variables of a level: new names, each visible in the values after it -/
inductive MadeBs (I : Ctors) (decl : Decl) : Names → LSt → List N → LSt → List (List Char) → List (List Char) → Prop where
  | nil {sc st} : MadeBs I decl sc st [] st [] []
  | cons {sc st st1 st' x v vs ns xs ys} : Tok x → cutAt letSuffix (x ++ letSuffix ++ dec st1.counter) = x → MadeP I decl true sc st v st1 xs →
      st1.lets.lookup x = none → MadeBs I decl sc { st1 with lets := (x, .val (letVar st1.counter x v)) :: st1.lets } vs st' ns ys →
      MadeBs I decl sc st (letVar st1.counter x v :: vs) st' (x :: ns) (xs ++ ys)
end

/-! ## The cases -/

variable {I : Ctors} {decl : Decl} {d : Bool} {sc : Names} {st st1 st' : LSt}

/-- the node can be read back from its text -/
def ViewP (I : Ctors) (decl : Decl) (d : Bool) (sc : Names) (st : LSt) (n : N) (st' : LSt) (xs : List (List Char)) : Prop :=
  ∃ (x : Sexp) (t : T D) (pr : List N × N), flat x = flat (sexpr n) ∧ Toks x ∧ Reads decl false x t ∧ t.names = xs ∧
    buildC I d sc st (t.map some) = .ok (pr, st') ∧ close pr = n ∧ (n.kind ≠ .LET_CHAIN → pr.1 = [])

/-- the same for a list -/
def ViewPL (I : Ctors) (decl : Decl) (d : Bool) (sc : Names) (st : LSt) (cs : List N) (st' : LSt) (xs : List (List Char)) : Prop :=
  ∃ (ss : List Sexp) (ts : List (T D)), ss.map flat = (sexprs cs).map flat ∧ ToksL ss ∧ ReadsL decl false ss ts ∧ namesL ts = xs ∧
    buildPL I d sc st (mapL some ts) = .ok (cs, st')

/-- the levels of a let and its body -/
def ViewCh (I : Ctors) (decl : Decl) (sc : Names) (st : LSt) (ls : List N) (b : N) (st' : LSt) (xs : List (List Char)) : Prop :=
  ∃ (ss : List Sexp) (u : Sexp) (ns : List (List Char)) (vs : List (T D)) (t : T D),
    flat (.list [.atom cs!"let", .list ss, u]) = flat (chain (ls ++ [b])) ∧ ToksL ss ∧ Toks u ∧ ReadsB decl false ss ns vs ∧
    Reads decl false u t ∧ (T.mk (.lets ns) (vs ++ [t])).names = xs ∧ buildLv I sc st [] ns (mapL some (vs ++ [t])) = .ok ((ls, b), st')

/-- the variables of a level, before any further bindings and the body -/
def ViewBs (I : Ctors) (decl : Decl) (sc : Names) (st : LSt) (vars : List N) (st' : LSt) (ns xs : List (List Char)) : Prop :=
  ∃ (ss : List Sexp) (vs : List (T D)), ss.map flat = (binds vars).map flat ∧ ToksL ss ∧ ReadsB decl false ss ns vs ∧ namesL vs = xs ∧
    ∀ (acc : List N) (rest : List (T (Option D))), buildLv I sc st acc ns (mapL some vs ++ rest) = buildLv I sc st' (acc ++ vars) [] rest

theorem viewPL_length {cs : List N} {xs : List (List Char)} {ss : List Sexp} (h : ss.map flat = (sexprs cs).map flat) : ss.length = cs.length := by
  have := congrArg List.length h
  simpa [Parse.sexprs_map] using this

theorem buildPL_length {ts : List (T (Option D))} {cs : List N} (h : buildPL I d sc st ts = .ok (cs, st')) : ts.length = cs.length := by
  induction ts generalizing cs st with
  | nil => simp only [buildPL, Res.ok.injEq, Prod.mk.injEq] at h; rw [← h.1]; rfl
  | cons t ts ih =>
    rw [buildPL] at h
    obtain ⟨⟨x, st2⟩, h1, h⟩ := bind_ok h
    obtain ⟨⟨ys, st3⟩, h2, h⟩ := bind_ok h
    simp only [Res.pure_eq, Res.ok.injEq, Prod.mk.injEq] at h
    obtain ⟨rfl, rfl⟩ := h
    simp [ih h2]

theorem buildPL_append {as bs : List (T (Option D))} {xs ys : List N} (h1 : buildPL I d sc st as = .ok (xs, st1))
    (h2 : buildPL I d sc st1 bs = .ok (ys, st')) : buildPL I d sc st (as ++ bs) = .ok (xs ++ ys, st') := by
  induction as generalizing xs st with
  | nil =>
    simp only [buildPL, Res.ok.injEq, Prod.mk.injEq] at h1
    obtain ⟨rfl, rfl⟩ := h1
    exact h2
  | cons a as ih =>
    rw [buildPL] at h1
    obtain ⟨⟨x, st2⟩, k1, h1⟩ := bind_ok h1
    obtain ⟨⟨zs, st3⟩, k2, h1⟩ := bind_ok h1
    simp only [Res.pure_eq, Res.ok.injEq, Prod.mk.injEq] at h1
    obtain ⟨rfl, rfl⟩ := h1
    rw [List.cons_append, buildPL, k1]
    simp only [Res.ok_bind, ih k2, Res.pure_eq, List.cons_append]

theorem viewP_word {n : N} {w : List Char} (h : wordOf n = some w) (hw : Tok w) (hl : I.leaf (st.seen d ++ sc) w false = .ok n) :
    ViewP I decl d sc st n st [] :=
  ⟨.atom w, .mk (.sym w false) [], ([], n), by rw [sexpr_word h], hw, .sym, rfl,
    by simp only [T.map, Tag.map, mapL, buildC, hl, Res.ok_bind, Res.pure_eq], rfl, fun _ => rfl⟩

theorem viewP_neg (hI : Lawful I) {s : Srt} {ds : List Char} {m : N} (hs : numeric s = true) (hd : Tok ds)
    (hl : I.leaf (st.seen d ++ sc) ds false = .ok m) (hn : I.op .NEG [m] = .ok (.mk .CONST ('-' :: ds) s [])) :
    ViewP I decl d sc st (.mk .CONST ('-' :: ds) s []) st [] := by
  have h1 := call_app hI (k := .NEG) (cs := [m]) (.inl ⟨by decide, rfl⟩)
  refine ⟨.list [.atom cs!"-", .atom ds], .mk (.app cs!"-" 0) [.mk (.sym ds false) []], ([], .mk .CONST ('-' :: ds) s []), ?_,
    ⟨plainB_tok (by decide +kernel), hd, trivial⟩, .app (by decide) (.cons .sym .nil), rfl, ?_, rfl, fun _ => rfl⟩
  · unfold sexpr
    rw [show form .CONST = .literal from rfl]
    simp only [constSexp, hs, List.length_nil, List.head?_cons, List.tail_cons]
    rfl
  · have h2 : callOper I ['-'] [] [m] = .ok (.mk .CONST ('-' :: ds) s []) := h1.2.trans hn
    simp only [T.map, Tag.map, mapL, buildC, buildPL, hl, Res.ok_bind, Res.pure_eq, List.take_zero, List.drop_zero, close, h2]

theorem viewP_parts {s : Srt} {cs : List N} {xs : List (List Char)} (h3 : cs.length = 3) (ih : ViewPL I decl d sc st cs st' xs)
    (hn : I.fp cs = .ok (.mk .CONST cs!"(fp_bit_representation)" s cs)) :
    ViewP I decl d sc st (.mk .CONST cs!"(fp_bit_representation)" s cs) st' xs := by
  obtain ⟨ss, ts, k1, k2, k3, k4, k5⟩ := ih
  refine ⟨.list (.atom cs!"fp" :: ss), .mk .fp ts, ([], .mk .CONST cs!"(fp_bit_representation)" s cs), ?_,
    ⟨plainB_tok (by decide +kernel), k2⟩, .fp ?_ k3, k4, ?_, rfl, fun _ => rfl⟩
  · unfold sexpr
    rw [show form .CONST = .literal from rfl]
    simp only
    rw [if_pos (by exact ⟨trivial, h3⟩)]
    exact reads_list k1
  · have := congrArg List.length k1
    simpa [Parse.sexprs_map, h3] using this
  · simp only [T.map, Tag.map, buildC, k5, Res.ok_bind, hn, Res.pure_eq]

theorem viewP_special {k : K} {w g e m : List Char} {s : Srt} (hf : form k = .special w) (hg : g ∈ fpNames) (he : Num64 e) (hm : Num64 m)
    (hn : I.fpc g (undec e) (undec m) = .ok (.mk k (cs!"(_ " ++ g ++ cs!" " ++ e ++ cs!" " ++ m ++ cs!")") s [])) :
    ViewP I decl d sc st (.mk k (cs!"(_ " ++ g ++ cs!" " ++ e ++ cs!" " ++ m ++ cs!")") s []) st [] := by
  have hgt : Tok g := by
    have : ∀ g ∈ fpNames, plainB g = true := by decide +kernel
    exact plainB_tok (this g hg)
  refine ⟨.list [.atom cs!"_", .atom g, .atom e, .atom m], .mk (.fpc g (undec e) (undec m)) [], ([], _), ?_,
    ⟨plainB_tok (by decide +kernel), hgt, num_tok he, num_tok hm, trivial⟩, .fpc hg he hm, rfl,
    by simp only [T.map, Tag.map, buildC, hn, Res.ok_bind, Res.pure_eq], rfl, fun _ => rfl⟩
  unfold sexpr
  rw [hf]
  simp only [flat, flats, tails]
  rw [if_pos (by rfl)]
  simp only [List.append_assoc, List.cons_append, List.nil_append]

theorem viewP_app (hI : Lawful I) {k : K} {name : List Char} {s : Srt} {cs : List N} {xs : List (List Char)} (ht : takes k cs.length)
    (ih : ViewPL I decl d sc st cs st' xs) (hn : I.op k cs = .ok (.mk k name s cs)) : ViewP I decl d sc st (.mk k name s cs) st' xs := by
  obtain ⟨ss, ts, k1, k2, k3, k4, k5⟩ := ih
  obtain ⟨h1, h2⟩ := call_app hI ht
  obtain ⟨e1, e2, e3, e4⟩ := appOk_spec h1
  have hne : cs.isEmpty = false := by
    cases cs with
    | nil => rcases ht with h | h | h | h | h | ⟨_, h | h⟩ <;> simp at h
    | cons => rfl
  refine ⟨.list (.atom (kindName k) :: ss), .mk (.app (kindName k) 0) ts, ([], .mk k name s cs), ?_, ⟨e2, k2⟩, .app e3 k3, k4, ?_, rfl, fun _ => rfl⟩
  · unfold sexpr
    rw [e1]
    simp only [hne]
    exact reads_list k1
  · simp only [T.map, Tag.map, buildC, k5, Res.ok_bind, List.take_zero, List.drop_zero, h2.trans hn, Res.pure_eq]

theorem viewP_constArr {name : List Char} {s : Srt} {e : D} {v : N} {xs : List (List Char)} (hs : SortOf decl (sortSexp s) e)
    (ht : Toks (sortSexp s)) (ih : ViewP I decl d sc st v st' xs) (hn : I.constArr (some e) v = .ok (.mk .CONST_ARRAY name s [v])) :
    ViewP I decl d sc st (.mk .CONST_ARRAY name s [v]) st' xs := by
  obtain ⟨x, t, pr, h1, h2, h3, h4, h5, h6, _⟩ := ih
  refine ⟨.list [.list [.atom cs!"as", .atom cs!"const", sortSexp s], x], .mk (.constArr e) [t], ([], .mk .CONST_ARRAY name s [v]), ?_,
    ⟨⟨plainB_tok (by decide +kernel), plainB_tok (by decide +kernel), ht, trivial⟩, h2, trivial⟩, .constArr hs h3, ?_, ?_, rfl, fun _ => rfl⟩
  · unfold sexpr
    rw [show form .CONST_ARRAY = .constArray from rfl]
    exact flat_congr (by simp only [List.map_cons, sexprs, h1])
  · simp [T.names, Tag.names, namesL, h4]
  · simp only [T.map, Tag.map, mapL, buildC, buildPL, h5, Res.ok_bind, Res.pure_eq, h6, hn]

theorem viewP_quant {k : K} {op name : List Char} {s : Srt} {b : N} {vs : List N} {ds : List (List Char × D)} {xs : List (List Char)}
    (hf : form k = .quant op) (hv : QVars decl vs ds) (ih : ViewP I decl d (scopeOf ds ++ sc) st b st' xs)
    (hn : I.quant op (ds.map fun v => (v.1, some v.2)) b = .ok (.mk k name s (b :: vs))) :
    ViewP I decl d sc st (.mk k name s (b :: vs)) st' xs := by
  obtain ⟨x, t, pr, h1, h2, h3, h4, h5, h6, _⟩ := ih
  obtain ⟨q1, q2⟩ := qvars hv
  have hop : op = cs!"exists" ∨ op = cs!"forall" := by
    have : ∀ k, (match form k with
      | .quant op => decide (op = cs!"exists" ∨ op = cs!"forall")
      | _ => true) = true := by intro k; cases k <;> rfl
    have := this k
    rw [hf] at this
    simpa using this
  have hot : Tok op := by rcases hop with rfl | rfl <;> exact plainB_tok (by decide +kernel)
  refine ⟨.list [.atom op, .list (vs.map varSexp), x], .mk (.quant op ds) [t], ([], .mk k name s (b :: vs)), ?_, ⟨hot, q2, h2, trivial⟩,
    .quant hop q1 h3, ?_, ?_, rfl, fun _ => rfl⟩
  · unfold sexpr
    rw [hf]
    exact flat_congr (by simp only [List.map_cons, sexprs, h1, List.tail_cons, List.take_succ_cons, List.take_zero])
  · simp [T.names, Tag.names, namesL, h4]
  · simp only [T.map, Tag.map, mapL, buildC, buildPL]
    have : (List.map (fun v => (v.1, (Stands.var v.2 : Stands))) (List.map (fun v => (v.1, some v.2)) ds).reverse) = scopeOf ds := by
      simp only [scopeOf, ← List.map_reverse, List.map_map]; rfl
    rw [this, h5]
    simp only [Res.ok_bind, Res.pure_eq, h6, hn]

theorem viewP_call {name : List Char} {cs : List N} {n : N} {xs : List (List Char)} (hs : sexpr n = .list (.atom name :: sexprs cs))
    (hi : I.isFun name = true) (hw : Tok name) (hr : name ∉ reserved) (hf : fast.lookup name = none) (ih : ViewPL I decl d sc st cs st' xs)
    (hn : I.apply name cs = .ok n) : ViewP I decl d sc st n st' xs := by
  obtain ⟨ss, ts, k1, k2, k3, k4, k5⟩ := ih
  refine ⟨.list (.atom name :: ss), .mk (.app name 0) ts, ([], n), ?_, ⟨hw, k2⟩, .app hr k3, k4, ?_, rfl, fun _ => rfl⟩
  · rw [hs]; exact reads_list k1
  · simp only [T.map, Tag.map, buildC, k5, Res.ok_bind, List.take_zero, List.drop_zero, callOper, List.isEmpty_nil, if_true, hf, parseOper,
      hi, hn, Res.pure_eq]

theorem viewP_indexedOp {op : List Char} {us vs : List N} {n : N} {xs ys : List (List Char)}
    (hs : flat (sexpr n) = flat (.list (.list (.atom cs!"_" :: .atom op :: sexprs us) :: sexprs vs))) (hu : us ≠ []) (hw : Tok op)
    (hi : I.isFun op = false) (hr : op ≠ cs!"root-obj") (ih1 : ViewPL I decl d sc st us st1 xs) (ih2 : ViewPL I decl d sc st1 vs st' ys)
    (hn : runCase I us vs (disp (getOperKind (String.ofList op))) = .ok n) : ViewP I decl d sc st n st' (xs ++ ys) := by
  obtain ⟨ss, ts, k1, k2, k3, k4, k5⟩ := ih1
  obtain ⟨rs, us', j1, j2, j3, j4, j5⟩ := ih2
  refine ⟨.list (.list (.atom cs!"_" :: .atom op :: ss) :: rs), .mk (.app op ts.length) (ts ++ us'), ([], n), ?_,
    ⟨⟨plainB_tok (by decide +kernel), hw, k2⟩, j2⟩, .indexed k3 j3, ?_, ?_, rfl, fun _ => rfl⟩
  · rw [hs]
    exact flat_congr (by simp only [List.map_cons, j1, List.cons.injEq, and_true]; exact flat_congr (by simp only [List.map_cons, k1]))
  · simp only [T.names, Tag.names, namesL_append, k4, j4]; rfl
  · have hl : ts.length = us.length := by rw [← mapL_length some, buildPL_length k5]
    have he : us.isEmpty = false := by cases us with
      | nil => exact absurd rfl hu
      | cons => rfl
    have hc : callOper I op us vs = .ok n := by
      simp only [callOper, he, Bool.false_eq_true, if_false, parseOper, hi, if_neg hr]
      exact hn
    simp only [T.map, Tag.map, buildC, mapL_append, buildPL_append k5 j5, Res.ok_bind, hl, List.take_left, List.drop_left, hc, Res.pure_eq]

theorem ite_none {α : Type} {c : Prop} [Decidable c] {x y : α} (h : (if c then some x else none) = some y) : c ∧ x = y := by
  split at h
  · exact ⟨by assumption, by injection h⟩
  · cases h

theorem viewP_idx2 (hI : Lawful I) {k : K} {name : List Char} {s : Srt} {a b : N} {xs ys : List (List Char)} (hk : k ∈ [K.BV_REPEAT, K.BV_ZERO_EXT, K.BV_SIGN_EXT, K.BV_ROTATE_LEFT, K.BV_ROTATE_RIGHT])
    (ih1 : ViewPL I decl d sc st [b] st1 xs) (ih2 : ViewPL I decl d sc st1 [a] st' ys)
    (hn : I.op k [a, b] = .ok (.mk k name s [a, b])) : ViewP I decl d sc st (.mk k name s [a, b]) st' (xs ++ ys) := by
  simp only [List.mem_cons, List.not_mem_nil, or_false] at hk
  rcases hk with rfl | rfl | rfl | rfl | rfl
  · exact viewP_indexedOp (op := kindName .BV_REPEAT) (us := [b]) (vs := [a]) rfl (by simp) (plainB_tok (idx_table _ (by decide)).1) (hI.noFun _) (idx_table .BV_REPEAT (by decide)).2 ih1 ih2 hn
  · exact viewP_indexedOp (op := kindName .BV_ZERO_EXT) (us := [b]) (vs := [a]) rfl (by simp) (plainB_tok (idx_table _ (by decide)).1) (hI.noFun _) (idx_table .BV_ZERO_EXT (by decide)).2 ih1 ih2 hn
  · exact viewP_indexedOp (op := kindName .BV_SIGN_EXT) (us := [b]) (vs := [a]) rfl (by simp) (plainB_tok (idx_table _ (by decide)).1) (hI.noFun _) (idx_table .BV_SIGN_EXT (by decide)).2 ih1 ih2 hn
  · exact viewP_indexedOp (op := kindName .BV_ROTATE_LEFT) (us := [b]) (vs := [a]) rfl (by simp) (plainB_tok (idx_table _ (by decide)).1) (hI.noFun _) (idx_table .BV_ROTATE_LEFT (by decide)).2 ih1 ih2 hn
  · exact viewP_indexedOp (op := kindName .BV_ROTATE_RIGHT) (us := [b]) (vs := [a]) rfl (by simp) (plainB_tok (idx_table _ (by decide)).1) (hI.noFun _) (idx_table .BV_ROTATE_RIGHT (by decide)).2 ih1 ih2 hn

theorem viewP_idx3 (hI : Lawful I) {k : K} {name : List Char} {s : Srt} {a b c : N} {xs ys : List (List Char)} (hk : k ∈ [K.BV_EXTRACT, K.REG_LOOP])
    (ih1 : ViewPL I decl d sc st [b, c] st1 xs) (ih2 : ViewPL I decl d sc st1 [a] st' ys)
    (hn : I.op k [a, b, c] = .ok (.mk k name s [a, b, c])) : ViewP I decl d sc st (.mk k name s [a, b, c]) st' (xs ++ ys) := by
  simp only [List.mem_cons, List.not_mem_nil, or_false] at hk
  rcases hk with rfl | rfl
  · exact viewP_indexedOp (op := kindName .BV_EXTRACT) (us := [b, c]) (vs := [a]) rfl (by simp) (plainB_tok (idx_table _ (by decide)).1) (hI.noFun _) (idx_table .BV_EXTRACT (by decide)).2 ih1 ih2 hn
  · exact viewP_indexedOp (op := kindName .REG_LOOP) (us := [b, c]) (vs := [a]) rfl (by simp) (plainB_tok (idx_table _ (by decide)).1) (hI.noFun _) (idx_table .REG_LOOP (by decide)).2 ih1 ih2 hn

theorem viewP_idx3b (hI : Lawful I) {k : K} {name : List Char} {s : Srt} {a b c : N} {xs ys : List (List Char)} (hk : k ∈ [K.FP_TO_UBV, K.FP_TO_SBV])
    (ih1 : ViewPL I decl d sc st [c] st1 xs) (ih2 : ViewPL I decl d sc st1 [a, b] st' ys)
    (hn : I.op k [a, b, c] = .ok (.mk k name s [a, b, c])) : ViewP I decl d sc st (.mk k name s [a, b, c]) st' (xs ++ ys) := by
  simp only [List.mem_cons, List.not_mem_nil, or_false] at hk
  rcases hk with rfl | rfl
  · exact viewP_indexedOp (op := kindName .FP_TO_UBV) (us := [c]) (vs := [a, b]) rfl (by simp) (plainB_tok (idx_table _ (by decide)).1) (hI.noFun _) (idx_table .FP_TO_UBV (by decide)).2 ih1 ih2 hn
  · exact viewP_indexedOp (op := kindName .FP_TO_SBV) (us := [c]) (vs := [a, b]) rfl (by simp) (plainB_tok (idx_table _ (by decide)).1) (hI.noFun _) (idx_table .FP_TO_SBV (by decide)).2 ih1 ih2 hn

theorem viewP_fp3 (hI : Lawful I) {k : K} {name : List Char} {s : Srt} {a b c : N} {xs ys : List (List Char)} (hk : k ∈ [K.FP_TO_FP])
    (ih1 : ViewPL I decl d sc st [a, b] st1 xs) (ih2 : ViewPL I decl d sc st1 [c] st' ys)
    (hn : I.op k [a, b, c] = .ok (.mk k name s [a, b, c])) : ViewP I decl d sc st (.mk k name s [a, b, c]) st' (xs ++ ys) := by
  simp only [List.mem_cons, List.not_mem_nil, or_false] at hk
  subst hk
  exact viewP_indexedOp (op := kindName .FP_TO_FP) (us := [a, b]) (vs := [c]) rfl (by simp) (plainB_tok (idx_table _ (by decide)).1) (hI.noFun _) (idx_table .FP_TO_FP (by decide)).2 ih1 ih2 hn

theorem viewP_fp4 (hI : Lawful I) {k : K} {name : List Char} {s : Srt} {a b c e : N} {xs ys : List (List Char)} (hk : k ∈ [K.FP_TO_FP])
    (ih1 : ViewPL I decl d sc st [a, b] st1 xs) (ih2 : ViewPL I decl d sc st1 [c, e] st' ys)
    (hn : I.op k [a, b, c, e] = .ok (.mk k name s [a, b, c, e])) : ViewP I decl d sc st (.mk k name s [a, b, c, e]) st' (xs ++ ys) := by
  simp only [List.mem_cons, List.not_mem_nil, or_false] at hk
  subst hk
  exact viewP_indexedOp (op := kindName .FP_TO_FP) (us := [a, b]) (vs := [c, e]) rfl (by simp) (plainB_tok (idx_table _ (by decide)).1) (hI.noFun _) (idx_table .FP_TO_FP (by decide)).2 ih1 ih2 hn

theorem viewP_indexed (hI : Lawful I) {k : K} {name : List Char} {s : Srt} {cs us vs : List N} {xs ys : List (List Char)}
    (hp : parted k cs = some (us, vs)) (ih1 : ViewPL I decl d sc st us st1 xs) (ih2 : ViewPL I decl d sc st1 vs st' ys)
    (hn : I.op k cs = .ok (.mk k name s cs)) : ViewP I decl d sc st (.mk k name s cs) st' (xs ++ ys) := by
  match cs, hp with
  | [a, b], hp =>
    simp only [parted] at hp
    obtain ⟨hk, hp⟩ := ite_none hp
    obtain ⟨rfl, rfl⟩ := Prod.mk.injEq .. ▸ hp
    exact viewP_idx2 hI hk ih1 ih2 hn
  | [a, b, c], hp =>
    simp only [parted] at hp
    by_cases h1 : k ∈ [K.BV_EXTRACT, .REG_LOOP]
    · rw [if_pos h1, Option.some.injEq, Prod.mk.injEq] at hp
      obtain ⟨rfl, rfl⟩ := hp
      exact viewP_idx3 hI h1 ih1 ih2 hn
    · rw [if_neg h1] at hp
      by_cases h2 : k ∈ [K.FP_TO_UBV, .FP_TO_SBV]
      · rw [if_pos h2, Option.some.injEq, Prod.mk.injEq] at hp
        obtain ⟨rfl, rfl⟩ := hp
        exact viewP_idx3b hI h2 ih1 ih2 hn
      · rw [if_neg h2] at hp
        obtain ⟨hk, hp⟩ := ite_none hp
        obtain ⟨rfl, rfl⟩ := Prod.mk.injEq .. ▸ hp
        exact viewP_fp3 hI (by rw [hk]; exact List.mem_singleton.mpr rfl) ih1 ih2 hn
  | [a, b, c, e], hp =>
    simp only [parted] at hp
    obtain ⟨hk, hp⟩ := ite_none hp
    obtain ⟨rfl, rfl⟩ := Prod.mk.injEq .. ▸ hp
    exact viewP_fp4 hI (by rw [hk]; exact List.mem_singleton.mpr rfl) ih1 ih2 hn
  | [], hp => simp [parted] at hp
  | [_], hp => simp [parted] at hp
  | _ :: _ :: _ :: _ :: _ :: _, hp => simp [parted] at hp

/-! ## Lets -/

theorem viewBs_cons {x : List Char} {v : N} {vs : List N} {ns xs ys : List (List Char)} (hx : Tok x)
    (hc : cutAt letSuffix (x ++ letSuffix ++ dec st1.counter) = x) (ih1 : ViewP I decl true sc st v st1 xs) (hl : st1.lets.lookup x = none)
    (ih2 : ViewBs I decl sc { st1 with lets := (x, .val (letVar st1.counter x v)) :: st1.lets } vs st' ns ys) :
    ViewBs I decl sc st (letVar st1.counter x v :: vs) st' (x :: ns) (xs ++ ys) := by
  obtain ⟨u, t, pr, h1, h2, h3, h4, h5, h6, _⟩ := ih1
  obtain ⟨ss, ts, k1, k2, k3, k4, k5⟩ := ih2
  refine ⟨.list [.atom x, u] :: ss, t :: ts, ?_, ⟨⟨hx, h2, trivial⟩, k2⟩, .cons h3 k3, by simp only [namesL, h4, k4], ?_⟩
  · simp only [List.map_cons, binds, k1, List.cons.injEq, and_true]
    unfold Print.bind letVar
    simp only [letName, if_true, hc, sexprs]
    exact flat_congr (by simp only [List.map_cons, h1])
  · intro acc rest
    have hb : bindVar st1 x (close pr) = (letVar st1.counter x v, { st1 with lets := (x, .val (letVar st1.counter x v)) :: st1.lets }) := by
      unfold bindVar
      rw [hl, h6]
      rfl
    simp only [mapL, List.cons_append, buildLv, h5, Res.ok_bind, hb]
    rw [k5, List.append_assoc, List.singleton_append]

theorem chain_cons (l b : N) (ls : List N) : chain (l :: (ls ++ [b])) = .list [.atom cs!"let", .list (Print.bindList l), chain (ls ++ [b])] := by
  unfold chain
  rw [if_neg (by cases ls <;> simp)]
  cases ls <;> simp [chain]

theorem viewCh_of {v : N} {vs ls : List N} {b : N} {ns xs ys : List (List Char)} (ih1 : ViewBs I decl sc st (v :: vs) st1 ns xs)
    (ih2 : ∃ (u : Sexp) (t : T D), flat u = flat (chain (ls ++ [b])) ∧ Toks u ∧ Reads decl false u t ∧ t.names = ys ∧
      buildC I true sc st1 (t.map some) = .ok ((ls, b), st')) :
    ViewCh I decl sc st (.mk .LET_BIND_VAR_LIST [] v.sort (v :: vs) :: ls) b st' ((ns ++ xs) ++ ys) := by
  obtain ⟨ss, ts, k1, k2, k3, k4, k5⟩ := ih1
  obtain ⟨u, t, h1, h2, h3, h4, h5⟩ := ih2
  refine ⟨ss, u, ns, ts, t, ?_, k2, h2, k3, h3, by rw [lets_names, k4, h4], ?_⟩
  · rw [List.cons_append, chain_cons]
    refine flat_congr ?_
    simp only [List.map_cons, h1, List.map_nil, List.cons.injEq, and_true, true_and]
    exact flat_congr k1
  · rw [mapL_append, k5]
    simp only [mapL, List.nil_append, buildLv, bindList, Res.ok_bind, h5, Res.pure_eq]

theorem viewP_chain {l : N} {ls : List N} {b : N} {xs : List (List Char)} (ih : ViewCh I decl sc (st.enter d) (l :: ls) b st' xs) :
    ViewP I decl d sc st (.mk .LET_CHAIN [] b.sort (l :: ls ++ [b])) st' xs := by
  obtain ⟨ss, u, ns, vs, t, h1, h2, h3, h4, h5, h6, h7⟩ := ih
  refine ⟨.list [.atom cs!"let", .list ss, u], .mk (.lets ns) (vs ++ [t]), (l :: ls, b), ?_,
    ⟨plainB_tok (by decide +kernel), h2, h3, trivial⟩, .lets h4 h5, h6, ?_, rfl, fun h => absurd rfl h⟩
  · rw [h1]
    unfold sexpr
    rfl
  · simp only [T.map, Tag.map, buildC]
    exact h7

/-- every node of the class can be read back -/
theorem viewP_made (hI : Lawful I) {n : N} {xs : List (List Char)} (h : MadeP I decl d sc st n st' xs) : ViewP I decl d sc st n st' xs := by
  refine MadeP.rec (motive_1 := fun d sc st n st' xs _ => ViewP I decl d sc st n st' xs)
    (motive_2 := fun d sc st cs st' xs _ => ViewPL I decl d sc st cs st' xs)
    (motive_3 := fun sc st ls b st' xs _ => ViewCh I decl sc st ls b st' xs)
    (motive_4 := fun sc st vars st' ns xs _ => ViewBs I decl sc st vars st' ns xs) ?_ ?_ ?_ ?_ ?_ ?_ ?_ ?_ ?_ ?_ ?_ ?_ ?_ ?_ ?_ ?_ ?_ h
  · intro d sc st n w h1 h2 h3; exact viewP_word h1 h2 h3
  · intro d sc st s ds m h1 h2 h3 h4; exact viewP_neg hI h1 h2 h3 h4
  · intro d sc st st' s cs xs h1 _ h3 ih; exact viewP_parts h1 ih h3
  · intro d sc st k w g e m s h1 h2 h3 h4 h5; exact viewP_special h1 h2 h3 h4 h5
  · intro d sc st st' k name s cs xs h1 _ h3 ih; exact viewP_app hI h1 ih h3
  · intro d sc st st1 st' k name s cs us vs xs ys h1 _ _ h4 ih1 ih2; exact viewP_indexed hI h1 ih1 ih2 h4
  · intro d sc st st' name s e v xs h1 h2 _ h4 ih; exact viewP_constArr h1 h2 ih h4
  · intro d sc st st' k op name s b vs ds xs h1 h2 _ h4 ih; exact viewP_quant h1 h2 ih h4
  · intro d sc st st' k name s b cs xs h1 h2 h3 h4 h5 h6 _ h8 ih
    refine viewP_call (cs := cs) ?_ h3 h4 h5 h6 ih h8
    unfold sexpr
    rw [h1]
    cases cs with
    | nil => exact absurd rfl h2
    | cons => rfl
  · intro d sc st st' k name s cs xs h1 h2 h3 h4 h5 h6 _ h8 ih
    refine viewP_call (cs := cs) ?_ h3 h4 h5 h6 ih h8
    unfold sexpr
    rw [h1]
    cases cs with
    | nil => exact absurd rfl h2
    | cons => rfl
  · intro d sc st st' l ls b xs _ ih; exact viewP_chain ih
  · intro d sc st; exact ⟨[], [], rfl, trivial, .nil, rfl, rfl⟩
  · intro d sc st st1 st' n ns xs ys _ _ ih1 ih2
    obtain ⟨x, t, pr, h1, h2, h3, h4, h5, h6, _⟩ := ih1
    obtain ⟨ss, ts, k1, k2, k3, k4, k5⟩ := ih2
    refine ⟨x :: ss, t :: ts, by simp only [sexprs, List.map_cons, h1, k1], ⟨h2, k2⟩, .cons h3 k3, by simp only [namesL, h4, k4], ?_⟩
    simp only [mapL, buildPL, h5, k5, Res.ok_bind, Res.pure_eq, h6]
  · intro sc st st1 st' v vs b ns xs ys _ hb _ ih1 ih2
    refine viewCh_of ih1 ?_
    obtain ⟨x, t, pr, h1, h2, h3, h4, h5, h6, h7⟩ := ih2
    obtain ⟨p1, p2⟩ := pr
    have := h7 hb
    simp only at this
    subst this
    simp only [close] at h6
    subst h6
    exact ⟨x, t, by simpa [chain] using h1, h2, h3, h4, h5⟩
  · intro sc st st1 st' v vs l ls b ns xs ys _ _ ih1 ih2
    refine viewCh_of ih1 ?_
    obtain ⟨ss, u, ms, ws, t, h1, h2, h3, h4, h5, h6, h7⟩ := ih2
    refine ⟨.list [.atom cs!"let", .list ss, u], .mk (.lets ms) (ws ++ [t]), h1, ⟨plainB_tok (by decide +kernel), h2, h3, trivial⟩, .lets h4 h5, h6, ?_⟩
    simp only [T.map, Tag.map, buildC]
    exact h7
  · intro sc st; exact ⟨[], [], rfl, trivial, .nil, rfl, fun acc rest => by simp [mapL]⟩
  · intro sc st st1 st' x v vs ns xs ys h1 h2 _ h4 _ ih1 ih2; exact viewBs_cons h1 h2 ih1 h4 ih2

/-- **C41, lets are kept**: an expression with let chains, of any depth, that is what the constructors make of its parts, is printed, the
text is read in the default mode, and the same node is made: the same levels, variables with the same marks, the same values and body.  The
names bound by lets are pairwise different. -/
theorem round_let_partial (I : Ctors) (hI : Lawful I) {decl : Decl} (hg : GoodDecl decl) (p : P) (hk : Keys decl p.keys) (hp : p.ph = false)
    {n : N} (hw : WF n) {st st' : LSt} {xs : List (List Char)} (hm : MadeP I decl false [] st n st' xs) (hx : xs.Nodup)
    (hb : ∀ x ∈ xs, x ∉ p.bound) :
    ∃ (s : List Char) (t : T Srt) (q : P) (f : Nat), (∀ m, f ≤ m → dump m n = .ok s) ∧ (∀ m, f ≤ m → mkExpr true m p s = .ok (t, q)) ∧
      buildP I false [] st (t.map sortOf) = .ok (n, st') := by
  obtain ⟨x, t, pr, h1, h2, h3, h4, h5, h6, _⟩ := viewP_made hI hm
  obtain ⟨k, hd⟩ := print_exact_partial hw
  have hr : SepX false x [] := by
    cases x with
    | list _ => trivial
    | atom a =>
      show Sep false a []
      unfold Sep
      split
      · trivial
      · simp
      · rfl
  obtain ⟨t', q, f, e1, e2⟩ := mkExpr_reads_partial true (g := []) (r := []) (p := p) hg hk (by rw [hp]; exact h3) (by rw [h4]; exact hx)
    (by rw [h4]; exact hb) .nil (lay_flat false h2) hr
  refine ⟨flat (sexpr n), t', q, max k f, fun m hm => hd m (by omega), fun m hm => ?_, ?_⟩
  · have := e2 m (by omega)
    simpa [h1] using this
  · unfold buildP
    rw [e1, h5]
    simp only [Res.ok_bind, Res.pure_eq, h6]

end SMT.Parse
