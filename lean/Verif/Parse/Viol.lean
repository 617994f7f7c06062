import Verif.Parse.Props

/-! # Reading: sorts, examples and what goes wrong (C52, C53) -/

namespace SMT.Parse
open SMT SMT.Text SMT.Lex SMT.Sorts

set_option linter.unusedSimpArgs false
set_option linter.unusedVariables false

/-- **C53, a sort is read as the sort it is**, whatever its layout and whatever follows; the sort table stays right. -/
theorem sort_reads_partial (cfg : Cfg) {decl : Decl} (hg : GoodDecl decl) (p : P) (hk : Keys decl p.keys) {x : Sexp} {d : D}
    (hx : SortOf decl x d) {tx r : List Char} (ht : Lay cfg.file x tx) (hr : SepX cfg.file x r) (l : Nat) :
    ∃ (s : Srt) (ks : List (List Char × Srt)) (fuel : Nat), sortOf s = some d ∧ print s = text d ∧ Keys decl ks ∧
      ∀ m, fuel ≤ m → parseSort cfg m (p.at l (tx ++ r)) = .ok (s, { p with keys := ks }.at (l + nls tx) r) := by
  obtain ⟨s, ks, k, h1, h2, h3⟩ := sort_reads cfg hg hx tx r l p ht hr hk
  exact ⟨s, ks, k, sortOf_denotes h1, print_text h1, h2, h3⟩

/-! ## A text that is read -/

/-- a test for plain words -/
def plainB (w : List Char) : Bool :=
  !w.isEmpty && w.all (fun c => !isDelim c) && (List.range (w.length + 1)).all fun n => !startsSci (w.take n)

theorem plainB_tok {w : List Char} (h : plainB w = true) : Tok w := by
  simp only [plainB, Bool.and_eq_true, Bool.not_eq_true', List.all_eq_true, List.mem_range] at h
  obtain ⟨⟨h1, h2⟩, h3⟩ := h
  refine .plain (by rintro rfl; cases h1) h2 fun p hp => ?_
  obtain ⟨s, rfl⟩ := hp
  have := h3 p.length (by simp only [List.length_append]; omega)
  simpa using this

mutual
/-- a test for S-expressions of plain words -/
def plains : Sexp → Bool
  | .atom a => plainB a
  | .list xs => plainsL xs
/-- the same for lists -/
def plainsL : List Sexp → Bool
  | [] => true
  | x :: xs => plains x && plainsL xs
end
mutual
theorem plains_toks : ∀ {x : Sexp}, plains x = true → Toks x
  | .atom _, h => plainB_tok h
  | .list _, h => plainsL_toks h
theorem plainsL_toks : ∀ {xs : List Sexp}, plainsL xs = true → ToksL xs
  | [], _ => trivial
  | _ :: _, h => by
    simp only [plainsL, Bool.and_eq_true] at h
    exact ⟨plains_toks h.1, plainsL_toks h.2⟩
end

/-- `a` -/
abbrev w (s : List Char) : Sexp := .atom s

/-- `U` is declared, `Byte` is defined as `(_ BitVec 8)` -/
def exDecl : Decl := [(cs!"U", .named cs!"U"), (cs!"Byte", .bv 8)]
/-- the sort table -/
def exTable : List (List Char × Srt) := [(cs!"U", decSort cs!"U" 0), (cs!"BV_8", bvSort 8), (cs!"Byte", bvSort 8)]

/-- `(forall ((x Int) (a (Array U (_ BitVec 8))) (c Byte)) (let ((y (+ x 1))) (let ((z ((_ extract 3 0) b))) (! (= y z) :named foo))))` -/
def ex1 : Sexp :=
  .list [w cs!"forall", .list [.list [w cs!"x", w cs!"Int"],
      .list [w cs!"a", .list [w cs!"Array", w cs!"U", .list [w cs!"_", w cs!"BitVec", w cs!"8"]]], .list [w cs!"c", w cs!"Byte"]],
    .list [w cs!"let", .list [.list [w cs!"y", .list [w cs!"+", w cs!"x", w cs!"1"]]],
      .list [w cs!"let", .list [.list [w cs!"z", .list [.list [w cs!"_", w cs!"extract", w cs!"3", w cs!"0"], w cs!"b"]]],
        .list [w cs!"!", .list [w cs!"=", w cs!"y", w cs!"z"], w cs!":named", w cs!"foo"]]]]

/-- a symbol -/
abbrev s (a : List Char) : T D := .mk (.sym a false) []

/-- its term -/
def ex1t : T D :=
  .mk (.quant cs!"forall" [(cs!"x", .int), (cs!"a", .array (.named cs!"U") (.bv 8)), (cs!"c", .bv 8)]) [
    .mk (.lets [cs!"y"]) [.mk (.app cs!"+" 0) [s cs!"x", s cs!"1"],
      .mk (.lets [cs!"z"]) [.mk (.app cs!"extract" 2) [s cs!"3", s cs!"0", s cs!"b"],
        .mk (.named (some cs!"foo")) [.mk (.app cs!"=" 0) [s cs!"y", s cs!"z"]]]]]

theorem ex1_reads : Reads exDecl false ex1 ex1t :=
  .quant (.inr rfl)
    (.cons .int (.cons (.array (.named (by simp [exDecl])) (.bv ⟨by decide, by decide, by decide⟩)) (.cons (.named (by simp [exDecl])) .nil)))
    (.lets (vs := [_]) (.cons (.app (by decide) (.cons .sym (.cons .sym .nil))) .nil)
      (.lets (vs := [_]) (.cons (.indexed (us := [_, _]) (ts := [_]) (.cons .sym (.cons .sym .nil)) (.cons .sym .nil)) .nil)
        (.named (.app (by decide) (.cons .sym (.cons .sym .nil))))))

theorem exKeys : Keys exDecl exTable := by
  refine ⟨fun n d hn => ?_, fun k s h => ?_⟩
  · simp only [exDecl, List.mem_cons, Prod.mk.injEq, List.not_mem_nil, or_false] at hn
    rcases hn with ⟨rfl, rfl⟩ | ⟨rfl, rfl⟩
    · exact ⟨_, rfl, .named _⟩
    · exact ⟨_, rfl, .bv _⟩
  · simp only [exTable, List.lookup] at h
    split at h
    · rename_i hk; simp only [beq_iff_eq] at hk; exact .inl (by simp [hk, exDecl, declNames])
    · split at h
      · rename_i hk; simp only [beq_iff_eq] at hk; injection h with h; exact .inr (.inl ⟨cs!"8", hk, ⟨by decide, by decide, by decide⟩, h.symm⟩)
      · split at h
        · rename_i hk; simp only [beq_iff_eq] at hk; exact .inl (by simp [hk, exDecl, declNames])
        · cases h

/-- the text on one line is read -/
example (pres : Bool) : ∃ t' q fuel, Same t' ex1t ∧ ∀ m, fuel ≤ m →
    mkExpr pres m ⟨⟨[], .symbol, 1⟩, exTable, [], 0, false⟩ (flat ex1) = .ok (t', q) := by
  have h := mkExpr_reads_partial pres (g := []) (r := []) (p := ⟨⟨[], .symbol, 1⟩, exTable, [], 0, false⟩)
    (goodDecl (decl := exDecl) (by decide) (by simp [exDecl, Over])) exKeys ex1_reads (by decide) (by intro n _; exact List.not_mem_nil) .nil
    (lay_flat false (plains_toks (x := ex1) (by decide +kernel))) trivial
  simpa using h

/-- a layout with comments -/
example : Lay true (.list [w cs!"and", w cs!"a", w cs!"b"]) cs!"( ; first\n  and a\t; second (\nb )" := by
  refine .list (g := cs!" ; first\n  ") (b := cs!"and a\t; second (\nb ") ?_ ?_
  · exact .ws (.inl rfl) (.comment (b := cs!" first") (by decide) rfl (.ws (.inl rfl) (.ws (.inl rfl) .nil)))
  · refine .cons (tx := cs!"and") (g := cs!" ") (.atom (plainB_tok (by decide +kernel))) (.ws (.inl rfl) .nil) ?_ (.inl rfl)
    refine .cons (tx := cs!"a") (g := cs!"\t; second (\n") (.atom (plainB_tok (by decide +kernel)))
      (.ws (.inl rfl) (.comment (b := cs!" second (") (by decide) rfl .nil)) ?_ (.inl rfl)
    exact .cons (tx := cs!"b") (g := cs!" ") (b := []) (.atom (plainB_tok (by decide +kernel))) (.ws (.inl rfl) .nil) .nil (.inl rfl)

/-! ## What goes wrong -/

/-- a parser that knows nothing -/
def p0 : P := ⟨⟨[], .symbol, 1⟩, [], [], 0, false⟩

/-- the verdict of reading -/
inductive V where
  | ok (rest : List Char) | throw | abort | ub | diverge
  deriving DecidableEq

/-- read an expression from a string -/
def verdict (text : List Char) : V :=
  match mkExpr false 60 p0 text with
  | .ok r => .ok r.2.lex.rest
  | .throw => .throw
  | .abort => .abort
  | .ub => .ub
  | .diverge => .diverge

/-- **C52 is violated** for these texts, most of which are SMT-LIB terms:
a let that binds a name again (exit), an annotation other than `:named` (exit), a qualified identifier (exit), `((root-obj ...))` (the last
parenthesis is left over), text behind the expression (not noticed); a let without a body and an empty list (undefined behaviour). -/
theorem reading_violated :
    verdict cs!"(let ((x 1)) (let ((x 2)) x))" = .abort ∧
    verdict cs!"(! p :pattern (q))" = .abort ∧
    verdict cs!"((as f Int) 1)" = .abort ∧
    verdict cs!"((root-obj x 1))" = .ok cs!")" ∧
    verdict cs!"(and p q) r)" = .ok cs!"r)" ∧
    verdict cs!"(let ((x 1)))" = .ub ∧
    verdict cs!"()" = .ub := by decide +kernel

/-- the setting for unknown symbols after reading an expression from a string -/
def phAfter (text : List Char) : Option Bool :=
  match mkExpr false 60 p0 text with
  | .ok r => some r.2.ph
  | _ => none

/-- **C52 is violated**: after `(root-obj x 1)` unknown symbols are no longer errors. -/
theorem placeholder_violated : phAfter cs!"(and p q)" = some false ∧ phAfter cs!"(root-obj x 1)" = some true := by decide +kernel

/-- read a sort from a string, with a sort table -/
def sortFrom (keys : List (List Char × Srt)) (texts : List (List Char)) : List (Option D) :=
  match texts with
  | [] => []
  | t :: ts =>
    match parseSort ⟨false, false⟩ 20 { p0 with lex := scan 1 t, keys := keys } with
    | .ok (s, p) => sortOf s :: sortFrom p.keys ts
    | _ => none :: sortFrom keys ts

/-- **C53 is violated**: after reading `(Array A_B C)`, the different sort `(Array A B_C)` is read as the first one; a declared sort with the
name `BV_8` is what `(_ BitVec 8)` is read as; the arguments of a declared sort are lost. -/
theorem sort_violated :
    sortFrom [(cs!"A", decSort cs!"A" 0), (cs!"B_C", decSort cs!"B_C" 0), (cs!"A_B", decSort cs!"A_B" 0), (cs!"C", decSort cs!"C" 0)]
        [cs!"(Array A_B C)", cs!"(Array A B_C)"] =
      [some (.array (.named cs!"A_B") (.named cs!"C")), some (.array (.named cs!"A_B") (.named cs!"C"))] ∧
    sortFrom [(cs!"BV_8", decSort cs!"BV_8" 0)] [cs!"(_ BitVec 8)"] = [some (.named cs!"BV_8")] ∧
    sortFrom [(cs!"L", decSort cs!"L" 1)] [cs!"(L Int)", cs!"(L Bool)"] = [some (.named cs!"L"), some (.named cs!"L")] := by
  decide +kernel

end SMT.Parse
