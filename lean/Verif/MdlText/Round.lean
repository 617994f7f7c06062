import Verif.MdlText.Props
import Verif.Dump.Viol

/-!
# The written model is read back (C68)
-/

namespace SMT.MdlText
open SMT SMT.Text SMT.Lex SMT.Sorts SMT.Parse SMT.Script SMT.Print

set_option linter.unusedSimpArgs false
set_option linter.unusedVariables false

/-- a variable and a value that can be written and read back: the name is a word that does not start with a digit, the sort can be written, and
each node of the value is what its constructor returns for its parts -/
structure PairOk (I : Ctors) (decl : Decl) (v : N × N) : Prop where
  name : Tok v.1.name
  digit : ∀ c, v.1.name.head? = some c → ¬ ('0' ≤ c ∧ c ≤ '9')
  sort : ∃ d, Denotes v.1.sort d ∧ Over decl d ∧ Dump.Fits d
  wf : WF v.2
  made : Made I decl [] v.2
  notKw : (flat (sexpr v.2)).head? ≠ some ':'

theorem pair_written {I : Ctors} (hI : Lawful I) {decl : Decl} (hn : ∀ x ∈ decl, Tok x.1) {v : N × N} (h : PairOk I decl v) :
    ∃ (x : Sexp) (d : D) (e : T D), Toks x ∧ IsDef decl x (.var v.1.name d e) ∧ build I [] (e.map some) = .ok v.2 ∧ sortOf v.1.sort = some d ∧
      ∃ w, flat x = '(' :: (cs!"define-fun " ++ w) ∧
      ∃ k, ∀ m, k ≤ m → ∀ r, toText m [v] = .ok (flat x ++ ['\n']) ∧
        (Print.dump m v.2).bind (fun t => .ok (cs!"(define-fun " ++ v.1.name ++ cs!" () " ++ print v.1.sort ++ cs!" " ++ t ++ cs!")\n" ++ r)) =
          .ok (flat x ++ '\n' :: r) := by
  obtain ⟨x, t, h1, h2, h3, h4, h5⟩ := view_made hI h.made
  obtain ⟨d, d1, d2, d3⟩ := h.sort
  obtain ⟨k, hk⟩ := print_exact_partial h.wf
  have hname : nameOf v.1.name = v.1.name := by
    unfold nameOf
    split
    · rename_i c hc
      rw [if_neg (h.digit c hc)]
    · rfl
  have ht : Script.Term decl x t := ⟨h3, by rw [h4]; exact List.nodup_nil, by
    intro a ha
    subst ha
    have := h.notKw
    rw [← h1] at this
    exact this⟩
  have hd := IsDef.var (n := v.1.name) (Dump.sort_written d1 d2 d3) ht
  rw [hname] at hd
  have hf : flat (.list [.atom cs!"define-fun", .atom v.1.name, .list [], sortSexp v.1.sort, x]) =
      cs!"(define-fun " ++ v.1.name ++ cs!" () " ++ print v.1.sort ++ cs!" " ++ flat (sexpr v.2) ++ cs!")" := by
    have := flat_congr (xs := [.atom cs!"define-fun", .atom v.1.name, .list [], sortSexp v.1.sort, x])
      (ys := [.atom cs!"define-fun", .atom v.1.name, .list [], sortSexp v.1.sort, sexpr v.2]) (by simp only [List.map_cons, h1])
    rw [this]
    simp [flat, flats, tails, flat_sort]
  refine ⟨.list [.atom cs!"define-fun", .atom v.1.name, .list [], sortSexp v.1.sort, x], d, t,
    ⟨plainB_tok (by decide +kernel), h.name, trivial, Dump.sort_toks hn d1 d2, h2, trivial⟩, hd, h5, sortOf_denotes d1, _, by rw [hf]; simp; rfl,
    k, fun m hm r => ⟨?_, ?_⟩⟩
  · rw [hf]
    simp [toText, hk m hm]
  · rw [hf, hk m hm]
    simp [Res.bind]

/-- the text of the definitions -/
def lines : List Sexp → List Char
  | [] => []
  | x :: xs => flat x ++ '\n' :: lines xs

theorem lines_lay : ∀ {xs : List Sexp}, (∀ x ∈ xs, Toks x) → (∀ x ∈ xs, ∃ ys, x = .list ys) → LayL false xs (lines xs)
  | [], _, _ => .nil
  | x :: xs, h1, h2 => by
    have := LayL.cons (g := ['\n']) (lay_flat false (h1 x (by simp))) (.ws (.inr rfl) .nil)
      (lines_lay (xs := xs) (fun y hy => h1 y (List.mem_cons_of_mem _ hy)) (fun y hy => h2 y (List.mem_cons_of_mem _ hy))) (by
        obtain ⟨ys, rfl⟩ := h2 x (by simp)
        trivial)
    simpa [lines] using this

/-- the definitions of a model -/
def Matches (I : Ctors) : List Defn → List (N × N) → Prop
  | [], [] => True
  | .var n d e :: ds, v :: vs => n = v.1.name ∧ sortOf v.1.sort = some d ∧ build I [] (e.map some) = .ok v.2 ∧ Matches I ds vs
  | _, _ => False

theorem text_written {I : Ctors} (hI : Lawful I) {decl : Decl} (hn : ∀ x ∈ decl, Tok x.1) : ∀ {vs : List (N × N)}, (∀ v ∈ vs, PairOk I decl v) →
    ∃ (xs : List Sexp) (ds : List Defn), AreDefs decl xs ds ∧ (∀ x ∈ xs, Toks x) ∧ (∀ x ∈ xs, ∃ ys, x = .list ys) ∧ Matches I ds vs ∧
      (∀ x ∈ xs, ∃ w, flat x = '(' :: (cs!"define-fun " ++ w)) ∧ xs.length = vs.length ∧ ∃ k, ∀ m, k ≤ m → toText m vs = .ok (lines xs)
  | [], _ => ⟨[], [], .nil, by simp, by simp, trivial, by simp, rfl, 0, fun _ _ => rfl⟩
  | v :: vs, h => by
    obtain ⟨xs, ds, a1, a2, a3, a4, a7, a8, k, a5⟩ := text_written hI hn fun w hw => h w (List.mem_cons_of_mem _ hw)
    obtain ⟨x, d, e, b1, b2, b3, b4, b7, b8, k', b5⟩ := pair_written hI hn (h v List.mem_cons_self)
    refine ⟨x :: xs, .var v.1.name d e :: ds, .cons b2 a1, ?_, ?_, ⟨rfl, b4, b3, a4⟩, ?_, by simp [a8], max k k', fun m hm => ?_⟩
    · intro y hy
      rcases List.mem_cons.1 hy with rfl | hy
      · exact b1
      · exact a2 y hy
    · intro y hy
      rcases List.mem_cons.1 hy with rfl | hy
      · generalize Defn.var v.1.name d e = dd at b2
        cases b2 <;> exact ⟨_, rfl⟩
      · exact a3 y hy
    · intro y hy
      rcases List.mem_cons.1 hy with rfl | hy
      · exact ⟨b7, b8⟩
      · exact a7 y hy
    · have := (b5 m (by omega) (lines xs)).2
      obtain ⟨v1, v2⟩ := v
      rw [toText]
      cases hd : Print.dump m v2 with
      | ok t =>
        simp only [hd, Res.bind] at this
        simp only [Res.ok_bind, a5 m (by omega), Res.pure_eq, this]
        rfl
      | _ => simp only [hd, Res.bind] at this; cases this

theorem matches_fns {I : Ctors} : ∀ {ds : List Defn} {vs : List (N × N)}, Matches I ds vs → fnsOf ds = []
  | [], _, _ => rfl
  | .var n d e :: ds, [], h => h.elim
  | .var n d e :: ds, v :: vs, h => by
    have := matches_fns h.2.2.2
    simpa [fnsOf, Defn.fns] using this
  | .fn _ _ _ :: _, _, h => h.elim
  | .other :: _, _, h => h.elim

/-- the pairs that count -/
def counted (only : Bool) (known : List (List Char)) (vs : List (N × N)) : List (N × N) :=
  vs.filter fun v => !only || v.1.name ∈ known

theorem matches_values {I : Ctors} (only : Bool) (known : List (List Char)) : ∀ {ds : List Defn} {vs : List (N × N)}, Matches I ds vs →
    (values only known ds).map (fun v => (v.1, some v.2.1, build I [] (v.2.2.map some))) =
      (counted only known vs).map fun v => (v.1.name, sortOf v.1.sort, Res.ok v.2)
  | [], [], _ => rfl
  | .var n d e :: ds, [], h => h.elim
  | .var n d e :: ds, v :: vs, h => by
    obtain ⟨rfl, h2, h3, h4⟩ := h
    have ih := matches_values only known h4
    by_cases hc : only = true ∧ v.1.name ∉ known
    · have e1 : values only known (.var v.1.name d e :: ds) = values only known ds := by
        simp only [values, List.filterMap_cons, Defn.value, if_pos hc]
      have e2 : counted only known (v :: vs) = counted only known vs := by
        simp only [counted, List.filter_cons]
        simp [hc.1, hc.2]
      rw [e1, e2, ih]
    · have e1 : values only known (.var v.1.name d e :: ds) = (v.1.name, d, e) :: values only known ds := by
        simp only [values, List.filterMap_cons, Defn.value, if_neg hc]
      have e2 : counted only known (v :: vs) = v :: counted only known vs := by
        simp only [counted, List.filter_cons]
        cases only
        · simp
        · have : v.1.name ∈ known := Classical.not_not.1 fun h => hc ⟨rfl, h⟩
          simp [this]
      rw [e1, e2, List.map_cons, List.map_cons, ih, h2, h3]
  | .fn _ _ _ :: _, _, h => h.elim
  | .other :: _, _, h => h.elim
  | [], _ :: _, h => h.elim

theorem nodup_eraseDups : ∀ {l : List (List Char)}, l.Nodup → l.eraseDups = l
  | [], _ => rfl
  | a :: l, h => by
    rw [List.nodup_cons] at h
    rw [List.eraseDups_cons]
    have : l.filter (fun b => !b == a) = l := by
      rw [List.filter_eq_self]
      intro b hb
      have : b ≠ a := by
        rintro rfl
        exact h.1 hb
      simpa using this
    rw [this, nodup_eraseDups h.2]

theorem lookup_nodup {α : Type} : ∀ {l : List (List Char × α)}, (l.map fun v => v.1).Nodup → ∀ v ∈ l, l.lookup v.1 = some v.2
  | [], _, v, hv => by cases hv
  | (a, b) :: l, h, v, hv => by
    simp only [List.map_cons, List.nodup_cons] at h
    rw [List.lookup_cons]
    rcases List.mem_cons.1 hv with rfl | hv'
    · simp
    · have : v.1 ≠ a := by
        rintro rfl
        exact h.1 (List.mem_map_of_mem hv')
      have : (v.1 == a) = false := by simpa using this
      rw [this]
      exact lookup_nodup h.2 v hv'

theorem has_exact {m : M} {us : List (List Char × D × T D)} (h : Has m us) (hn : (us.map fun v => v.1).Nodup) :
    m.map (fun v => (v.1, v.2.2.map sortOf)) = us.map fun v => (v.1, v.2.2.map some) := by
  have h1 : m.map (fun v => v.1) = us.map fun v => v.1 := by rw [h.names, nodup_eraseDups hn]
  have h2 : ∀ x, (m.lookup x).map (fun v => v.2.map sortOf) = (us.lookup x).map fun v => v.2.map some := by
    intro x
    rw [h.value x]
    have hr : (us.reverse.map fun v => v.1).Nodup := by rw [List.map_reverse]; exact List.pairwise_reverse.2 (hn.imp fun h => h.symm)
    by_cases hx : x ∈ us.map fun v => v.1
    · obtain ⟨v, hv, rfl⟩ := List.mem_map.1 hx
      rw [lookup_nodup hn v hv, lookup_nodup hr v (List.mem_reverse.2 hv)]
    · rw [lookup_none hx, lookup_none (by simpa using hx)]
  have hm : (m.map fun v => v.1).Nodup := by rw [h1]; exact hn
  have hu : ∀ (i : Nat) (hi : i < m.length) (hj : i < us.length), (m[i].1, m[i].2.2.map sortOf) = (us[i].1, us[i].2.2.map some) := by
    intro i hi hj
    have e1 : m[i].1 = us[i].1 := by
      have := congrArg (fun l => l[i]?) h1
      simpa [hi, hj] using this
    have e2 := h2 m[i].1
    rw [lookup_nodup hm m[i] (List.getElem_mem hi), e1, lookup_nodup hn us[i] (List.getElem_mem hj)] at e2
    simp only [Option.map_some, Option.some.injEq] at e2
    rw [e1, e2]
  have hl : m.length = us.length := by simpa using congrArg List.length h1
  refine List.ext_getElem (by simpa using hl) fun i hi hj => ?_
  simp only [List.getElem_map]
  exact hu i (by simpa using hi) (by simpa using hj)

/-- **C68, writing and reading back a model**: for every model, of any size, whose values are built by their constructors from printable
parts, `(model`, the text of the model and `)` are read back as the same model: the same variables in the same order, and for each the
constructors called while reading its value return the same node.  With `only_declared` the variables that are not declared are left out.  The
parser gets the variables it did not know, and is otherwise left as it was. -/
theorem model_round_trip_partial {pres only : Bool} {cs : List Cmd} {s : S} (hc : Clean ⟨false, pres⟩ cs s.p) (hk : ∀ x ∈ sorts cs, Tok x.1)
    {I : Ctors} (hI : Lawful I) {vs : List (N × N)} (hv : ∀ v ∈ vs, PairOk I (sorts cs) v) (hn : (vs.map fun v => v.1.name).Nodup) :
    ∃ (text : List Char) (m : M) (s' : S) (us : List (List Char × D)) (k : Nat), (∀ n, k ≤ n → toText n vs = .ok text) ∧
      (∀ n, k ≤ n → parseModel pres n only s (cs!"(model\n" ++ text ++ cs!")") = .ok (m, s')) ∧
      m.map (fun v => (v.1, build I [] (v.2.2.map sortOf))) = (counted only (varNames s) vs).map (fun v => (v.1.name, Res.ok v.2)) ∧
      Left s s' [] us ∧ us.map (fun u => (u.1, some u.2)) =
        ((counted only (varNames s) vs).filter fun v => v.1.name ∉ varNames s).map fun v => (v.1.name, sortOf v.1.sort) := by
  obtain ⟨xs, ds, a1, a2, a3, a4, _, _, k, a5⟩ := text_written hI hk hv
  have hfn := matches_fns a4
  obtain ⟨m, s', k', r1, r2, r3, r4⟩ := model_read (only := only) hc a1 (by
    refine ⟨by rw [hfn]; exact List.nodup_nil, by rw [hfn]; simp⟩) (text := cs!"(model\n" ++ lines xs ++ cs!")") (by
    have := Wrapped.model (xs := xs) (g := []) (w := []) (g' := ['\n']) (b := lines xs) (r := []) .nil (by simp) (.ws (.inr rfl) .nil)
      (lines_lay a2 a3) ⟨'\n', rfl, by simp⟩
    simpa using this)
  have hval := matches_values only (varNames s) a4
  have hnames : (values only (varNames s) ds).map (fun v => v.1) = (counted only (varNames s) vs).map fun v => v.1.name := by
    have := congrArg (List.map fun v => v.1) hval
    simpa only [List.map_map, Function.comp_def] using this
  have hnd : ((values only (varNames s) ds).map fun v => v.1).Nodup := by
    rw [hnames]
    exact hn.sublist (List.Sublist.map _ List.filter_sublist)
  refine ⟨lines xs, m, s', _, max k k', fun n h => a5 n (by omega), fun n h => r1 n (by omega), ?_, by rw [hfn] at r3; exact r3, ?_⟩
  · have h1 := has_exact r2 hnd
    have h2 := congrArg (List.map fun (v : List Char × T (Option D)) => (v.1, build I [] v.2)) h1
    have h3 := congrArg (List.map fun (v : List Char × Option D × Res N) => (v.1, v.2.2)) hval
    simp only [List.map_map, Function.comp_def] at h2 h3
    rw [h2, h3]
  · have key : ∀ (us : List (List Char × D × T D)) (ws : List (N × N)) (known : List (List Char)),
        us.map (fun v => (v.1, some v.2.1)) = ws.map (fun v => (v.1.name, sortOf v.1.sort)) → (us.map fun v => v.1).Nodup →
        (newVars known us).map (fun u => (u.1, some u.2)) =
          (ws.filter fun v => v.1.name ∉ known).map fun v => (v.1.name, sortOf v.1.sort) := by
      intro us
      induction us with
      | nil =>
        intro ws known h _
        have : ws = [] := by simpa using h.symm
        subst this
        rfl
      | cons u us ih =>
        intro ws known h hnd
        obtain ⟨n, d, e⟩ := u
        cases ws with
        | nil => simp at h
        | cons w ws =>
          simp only [List.map_cons, List.cons.injEq, Prod.mk.injEq] at h
          obtain ⟨⟨h1, h2⟩, h3⟩ := h
          simp only [List.map_cons, List.nodup_cons] at hnd
          by_cases hk : n ∈ known
          · simp only [newVars, if_pos hk]
            rw [ih ws known h3 hnd.2]
            rw [h1] at hk
            simp [List.filter_cons, hk]
          · simp only [newVars, if_neg hk, List.map_cons]
            rw [ih ws (known ++ [n]) h3 hnd.2]
            have e1 : ws.filter (fun v => v.1.name ∉ known ++ [n]) = ws.filter fun v => v.1.name ∉ known := by
              refine List.filter_congr fun v hv => ?_
              have : v.1.name ≠ n := by
                intro e
                refine hnd.1 ?_
                have h4 := congrArg (List.map fun v => v.1) h3
                simp only [List.map_map, Function.comp_def] at h4
                rw [h4, ← e]
                exact List.mem_map.2 ⟨v, hv, rfl⟩
              simp [this]
            rw [e1]
            rw [h1] at hk
            simp [List.filter_cons, hk, h1, h2]
    refine key _ _ _ ?_ hnd
    have h3 := congrArg (List.map fun (v : List Char × Option D × Res N) => (v.1, v.2.1)) hval
    simpa only [List.map_map, Function.comp_def] using h3

/-- **C68 violated: the text of a model is not read back.**  `parseModel` takes the first opening parenthesis for one around all definitions.
Given what `toString` returns for any model that has a variable, it gives an empty model, without an error. -/
theorem model_text_violated (pres only : Bool) (s : S) {vs : List (N × N)} (hv : vs ≠ []) {k : Nat} {text : List Char} (ht : toText k vs = .ok text) :
    ∃ s', ∀ n, 0 < n → parseModel pres n only s text = .ok ([], s') := by
  have h1 : ∃ r, text = '(' :: 'd' :: r := by
    cases vs with
    | nil => exact absurd rfl hv
    | cons v vs =>
      obtain ⟨x, v⟩ := v
      rw [toText] at ht
      obtain ⟨t, _, ht⟩ := bind_ok ht
      obtain ⟨r, _, ht⟩ := bind_ok ht
      simp only [Res.pure_eq, Res.ok.injEq] at ht
      subst ht
      exact ⟨_, rfl⟩
  obtain ⟨r, rfl⟩ := h1
  have hd : Start 'd' := ⟨by decide, by decide, by decide⟩
  have hh : header ⟨false, pres⟩ (s.p.at 1 ('(' :: 'd' :: r)) = .ok (s.p.at 1 ('d' :: r)) := by
    unfold header
    rw [at_rest s.p 1 ('d' :: r) start_lp]
    have : isModelHead ('d' :: r) = false := by simp [isModelHead, List.dropWhile_cons, isWs4]
    simp only [this]
    exact lpar_at s.p 1 _
  refine ⟨restore s.p { s with p := s.p.at 1 ('d' :: r) }, fun n hn => ?_⟩
  obtain ⟨n, rfl⟩ : ∃ m, n = m + 1 := ⟨n - 1, by omega⟩
  unfold parseModel
  simp only
  rw [show ({ s.p with lex := scan 1 ('(' :: 'd' :: r) } : P) = s.p.at 1 ('(' :: 'd' :: r) from rfl, hh]
  simp only [Res.ok_bind]
  rw [pass1]
  have hb := blanks_at s.p 1 r hd
  have hc := cur_at s.p 1 r hd
  simp only [hb, hc]
  simp only [show (some 'd' : Option Char) ≠ some '(' from by decide, ne_eq, not_false_eq_true, if_true, Res.ok_bind]
  have e : ({ s.p.at 1 ('d' :: r) with lex := { (s.p.at 1 ('d' :: r)).lex with rest := (s.p.at 1 ('d' :: r)).lex.rest, line := 1 } } : P) = s.p.at 1 ('d' :: r) := by
    have := at_rest s.p 1 r hd
    unfold P.at at this ⊢
    simp only at this
    rw [this]
  rw [e, pass2]
  simp only [hb, hc]
  rfl

/-! ## A concrete case -/

/-- a parser that has declared `x` -/
def exS : S := { fresh with vars := [(cs!"x", INT_SORT)] }

/-- a model of `x` and of a new variable `|y z|` -/
def exModel : List (N × N) := [
  (.mk .VAR cs!"x" INT_SORT [], .mk .CONST cs!"-5" INT_SORT []),
  (.mk .VAR cs!"|y z|" BOOL_SORT [], .mk .LT cs!"<" BOOL_SORT [.mk .CONST cs!"7" INT_SORT [], .mk .CONST cs!"2" INT_SORT []])]

example : toText 100 exModel = .ok (cs!"(define-fun x () Int (- 5))\n(define-fun |y z| () Bool (< 7 2))\n") := by decide +kernel

theorem exModel_ok : ∀ v ∈ exModel, PairOk (Dump.fam [] none) [] v := by
  intro v hv
  simp only [exModel, List.mem_cons, List.not_mem_nil, or_false] at hv
  rcases hv with rfl | rfl
  · refine ⟨plainB_tok (by decide +kernel), by intro c hc; injection hc with hc; subst hc; decide, ⟨.int, .int, trivial, trivial⟩, ?_, ?_, by decide +kernel⟩
    · wf_node
    · exact .neg (ds := cs!"5") rfl (plainB_tok (by decide +kernel)) rfl rfl
  · refine ⟨.quoted (b := cs!"y z") (by decide), by intro c hc; injection hc with hc; subst hc; decide, ⟨.bool, .bool, trivial, trivial⟩, ?_, ?_,
      by decide +kernel⟩
    · wf_node
    · refine .app (by simp [takes, binary]) ?_ rfl
      intro c hc
      simp only [List.mem_cons, List.not_mem_nil, or_false] at hc
      rcases hc with rfl | rfl <;> exact .word rfl (plainB_tok (by decide +kernel)) rfl

theorem exS_clean : Clean ⟨false, true⟩ [] exS.p :=
  ⟨goodDecl (decl := []) (by decide) (by simp), ⟨(by intro n d h; cases h), (by intro k s h; cases h)⟩, rfl, rfl, fun h => by cases h⟩

/-- the names and the number of calls of the values of a model that is read -/
def readNames (only : Bool) (text : List Char) : Option (List (List Char) × List (List Char)) :=
  match parseModel true 100 only exS text with
  | .ok (m, s) => some (m.map fun v => v.1, varNames s)
  | _ => none

example : readNames false cs!"(model\n(define-fun x () Int (- 5))\n(define-fun |y z| () Bool (< 7 2))\n)" =
    some ([cs!"x", cs!"|y z|"], [cs!"x", cs!"|y z|"]) := by decide +kernel
example : readNames true cs!"((define-fun x () Int (- 5)) (define-fun f ((a Int)) Int a) (define-fun y () Int 7))" = some ([cs!"x"], [cs!"x"]) := by
  decide +kernel
example : readNames false cs!"(define-fun x () Int (- 5))\n(define-fun y () Int 7)\n" = some ([], [cs!"x"]) := by decide +kernel
example : readNames false cs!"(model (define-fun 1x () Int 1))" = some ([cs!"|1x|"], [cs!"x", cs!"|1x|"]) := by decide +kernel

end SMT.MdlText
