import Verif.Mean.Viol

/-! # C80: an assignment and a script that meet the hypotheses, and what goes wrong -/

namespace SMT.Mean
open SMT SMT.Text SMT.Kinds SMT.Sorts SMT.Parse SMT.Leaf SMT.Term SMT.Eval

set_option linter.unusedSimpArgs false
set_option linter.unusedVariables false

/-! ## An assignment that gives the operators their meaning -/

/-- the bit-vector of a value -/
def decode : Val → Option (Σ w, BitVec w)
  | .u (.bv w) s => some ⟨w, BitVec.ofInt w (BV.natLoop (s.toList.drop 2) 0)⟩
  | _ => none

theorem decode_val {w : Nat} (x : BitVec w) : decode (bvVal x) = some ⟨w, x⟩ := by
  simp only [decode, bvVal, String.toList_ofList, BV.lit, List.drop_succ_cons, List.drop_zero, BV.digits_eq, BV.natLoop_bits, BV.vb_lsb,
    BitVec.ofInt_natCast, BitVec.ofNat_toNat, BitVec.setWidth_eq]

/-- a bit-vector of the given width -/
def decodeW (w : Nat) (v : Val) : Option (BitVec w) := match decode v with
  | some ⟨u, x⟩ => if h : u = w then some (h ▸ x) else none
  | none => none

theorem decodeW_val {w : Nat} (x : BitVec w) : decodeW w (bvVal x) = some x := by
  simp [decodeW, decode_val]

/-- a list of them -/
def decodeL (w : Nat) : List Val → Option (List (BitVec w))
  | [] => some []
  | v :: vs => match decodeW w v, decodeL w vs with
    | some x, some xs => some (x :: xs)
    | _, _ => none

theorem decodeL_val {w : Nat} : ∀ xs : List (BitVec w), decodeL w (xs.map bvVal) = some xs
  | [] => rfl
  | x :: xs => by simp [decodeL, decodeW_val, decodeL_val xs]

/-- a natural number -/
def nat? : Val → Option Nat
  | .n q => some q.num.toNat
  | _ => none

theorem nat_val (n : Nat) : nat? (.n n) = some n := by simp [nat?]

/-- the operators: one operand -/
def bv1 (o : List Char) (a : Val) : Option Val := match decode a with
  | none => none
  | some ⟨w, x⟩ => if o = cs!"bvnot" then some (bvVal (~~~x)) else if o = cs!"bvneg" then some (bvVal (-x)) else none

/-- one operand and an index -/
def bvIx (o : List Char) (a : Val) (n : Nat) : Option Val := match decode a with
  | none => none
  | some ⟨w, x⟩ =>
    if o = cs!"repeat" then some (bvVal (x.replicate n)) else if o = cs!"rotate_left" then some (bvVal (x.rotateLeft n))
    else if o = cs!"rotate_right" then some (bvVal (x.rotateRight n)) else if o = cs!"zero_extend" then some (bvVal (x.zeroExtend (w + n)))
    else if o = cs!"sign_extend" then some (bvVal (x.signExtend (w + n))) else none

/-- two operands -/
def bv2 (o : List Char) (a b : Val) : Option Val := match decode a with
  | none => none
  | some ⟨w, x⟩ =>
    if o = cs!"concat" then match decode b with
      | some ⟨_, y⟩ => some (bvVal (x ++ y))
      | none => none
    else match decodeW w b with
      | none => none
      | some y =>
        if o = cs!"bvcomp" then some (bvVal (if x = y then 1#1 else 0#1)) else match leftTable.lookup o with
          | some f => some (bvVal (f w x y))
          | none => match binTable.lookup o with
            | some f => some (bvVal (f w x y))
            | none => (cmpTable.lookup o).map fun f => .b (f w x y)

/-- the operators -/
def bvMeaning (o : List Char) (vs : List Val) : Option Val := match vs with
  | [a] => bv1 o a
  | [a, b] => match nat? b with
    | some n => bvIx o a n
    | none => bv2 o a b
  | a :: b :: d :: vs => match nat? b, nat? d with
    | some hi, some lo => match decode a with
      | some ⟨_, x⟩ => some (bvVal (x.extractLsb' lo (hi - lo + 1)))
      | none => none
    | _, _ => match decode a with
      | none => none
      | some ⟨w, x⟩ => match decodeL w (b :: d :: vs), leftTable.lookup o with
        | some xs, some f => some (bvVal (xs.foldl (f w) x))
        | _, _ => none
  | [] => none

/-- every declared constant is `x`, the bit-vector operators have their meaning, declared functions none -/
def bvEnv {w : Nat} (x : BitVec w) : Env := ⟨fun _ _ _ => bvVal x, fun _ _ => "", fun k _ vs =>
  match bvTable.find? (fun p => p.2 == k) with
  | some p => bvMeaning p.1 vs
  | none => none⟩

theorem left_lookup {o : List Char} {f : ∀ w, BitVec w → BitVec w → BitVec w} (h : (o, f) ∈ leftTable) :
    leftTable.lookup o = some f ∧ o ≠ cs!"concat" ∧ o ≠ cs!"bvcomp" := by
  simp only [leftTable, List.mem_cons, Prod.mk.injEq, List.not_mem_nil, or_false] at h
  rcases h with ⟨rfl, rfl⟩ | ⟨rfl, rfl⟩ | ⟨rfl, rfl⟩ | ⟨rfl, rfl⟩ | ⟨rfl, rfl⟩ <;> exact ⟨rfl, by decide, by decide⟩

theorem bin_lookup {o : List Char} {f : ∀ w, BitVec w → BitVec w → BitVec w} (h : (o, f) ∈ binTable) :
    leftTable.lookup o = none ∧ binTable.lookup o = some f ∧ o ≠ cs!"concat" ∧ o ≠ cs!"bvcomp" := by
  simp only [binTable, List.mem_cons, Prod.mk.injEq, List.not_mem_nil, or_false] at h
  rcases h with ⟨rfl, rfl⟩ | ⟨rfl, rfl⟩ | ⟨rfl, rfl⟩ | ⟨rfl, rfl⟩ | ⟨rfl, rfl⟩ | ⟨rfl, rfl⟩ | ⟨rfl, rfl⟩ | ⟨rfl, rfl⟩ | ⟨rfl, rfl⟩ |
    ⟨rfl, rfl⟩ | ⟨rfl, rfl⟩ | ⟨rfl, rfl⟩ <;> exact ⟨rfl, rfl, by decide, by decide⟩

theorem cmp_lookup {o : List Char} {f : ∀ w, BitVec w → BitVec w → Bool} (h : (o, f) ∈ cmpTable) :
    leftTable.lookup o = none ∧ binTable.lookup o = none ∧ cmpTable.lookup o = some f ∧ o ≠ cs!"concat" ∧ o ≠ cs!"bvcomp" := by
  simp only [cmpTable, List.mem_cons, Prod.mk.injEq, List.not_mem_nil, or_false] at h
  rcases h with ⟨rfl, rfl⟩ | ⟨rfl, rfl⟩ | ⟨rfl, rfl⟩ | ⟨rfl, rfl⟩ | ⟨rfl, rfl⟩ | ⟨rfl, rfl⟩ | ⟨rfl, rfl⟩ | ⟨rfl, rfl⟩ <;>
    exact ⟨rfl, rfl, rfl, by decide, by decide⟩

theorem nat_bv {w : Nat} (x : BitVec w) : nat? (bvVal x) = none := rfl

theorem meaning_ok {o : List Char} {n : Nat} {vs : List Val} {v : Val} (h : BvApp o n vs v) : bvMeaning o (vs.drop n ++ vs.take n) = some v := by
  cases h with
  | not x hw => simp [bvMeaning, bv1, decode_val]
  | neg x hw => simp [bvMeaning, bv1, decode_val]
  | left x y xs ho hw =>
    obtain ⟨h1, h2, h3⟩ := left_lookup ho
    cases xs with
    | nil => simp [bvMeaning, bv2, decode_val, decodeW_val, nat_bv, h1, h2, h3]
    | cons z xs =>
      have := decodeL_val (y :: z :: xs)
      simp only [List.map_cons] at this
      simp only [List.drop_zero, List.take_zero, List.append_nil, List.map_cons, bvMeaning, decode_val, nat_bv, this, h1]
  | bin x y ho hw =>
    obtain ⟨h1, h2, h3, h4⟩ := bin_lookup ho
    simp [bvMeaning, bv2, decode_val, decodeW_val, nat_bv, h1, h2, h3, h4]
  | cmp x y ho hw =>
    obtain ⟨h1, h2, h3, h4, h5⟩ := cmp_lookup ho
    simp [bvMeaning, bv2, decode_val, decodeW_val, nat_bv, h1, h2, h3, h4, h5]
  | comp x y hw => simp [bvMeaning, bv2, decode_val, decodeW_val, nat_bv]
  | concat x y => simp [bvMeaning, bv2, decode_val, decodeW_val, nat_bv]
  | extract x hi lo => simp [bvMeaning, decode_val, nat_val]
  | rep x n => simp [bvMeaning, bvIx, decode_val, nat_val]
  | rol x n => simp [bvMeaning, bvIx, decode_val, nat_val]
  | ror x n => simp [bvMeaning, bvIx, decode_val, nat_val]
  | zext x n => simp [bvMeaning, bvIx, decode_val, nat_val]
  | sext x n => simp [bvMeaning, bvIx, decode_val, nat_val]

/-- it is an assignment of the theorem -/
theorem bvEnv_interprets {w : Nat} (x : BitVec w) : Interprets (bvEnv x) := by
  intro o k n vs v σ hk h _
  have key : ∀ p ∈ bvTable, bvTable.find? (fun q => q.2 == p.2) = some p := by decide
  show (match bvTable.find? (fun p => p.2 == k) with
    | some p => bvMeaning p.1 (vs.drop n ++ vs.take n)
    | none => none) = some v
  rw [key _ hk]
  exact meaning_ok h

/-! ## A script that meets the hypotheses -/

/-- constants in three notations, operators with and without indices, a let -/
def bScript : List Sexp := [
  .list [w cs!"set-logic", w cs!"QF_BV"],
  .list [w cs!"declare-const", w cs!"x", .list [w cs!"_", w cs!"BitVec", w cs!"8"]],
  .list [w cs!"assert", .list [w cs!"let", .list [.list [w cs!"y", .list [w cs!"bvadd", w cs!"x", w cs!"#x0f", w cs!"x"]]],
    .list [w cs!"and", .list [w cs!"bvult", .list [.list [w cs!"_", w cs!"extract", w cs!"3", w cs!"0"], w cs!"x"],
        .list [w cs!"bvsub", .list [w cs!"bvnot", .list [.list [w cs!"_", w cs!"extract", w cs!"5", w cs!"2"], w cs!"x"]], w cs!"#b0001"]],
      .list [w cs!"=", w cs!"y", .list [w cs!"concat", w cs!"#x1", .list [w cs!"_", w cs!"bv9", w cs!"4"]]]]]]]

/-- `((_ f i1 ... in) e1 ... em)` -/
def ix (f : List Char) (is ts : List (T D)) : T D := .mk (.app f is.length) (is ++ ts)

/-- the asserted term -/
def bTerm : T D := .mk (.lets [cs!"y"]) ([ap cs!"bvadd" [s cs!"x", s cs!"#x0f", s cs!"x"]] ++ [
  ap cs!"and" [ap cs!"bvult" [ix cs!"extract" [s cs!"3", s cs!"0"] [s cs!"x"],
      ap cs!"bvsub" [ap cs!"bvnot" [ix cs!"extract" [s cs!"5", s cs!"2"] [s cs!"x"]], s cs!"#b0001"]],
    ap cs!"=" [s cs!"y", ap cs!"concat" [s cs!"#x1", .mk (.bv cs!"9" 4) []]]]])

/-- the declarations before it -/
def bDecls : List Script.Cmd := [.logic cs!"QF_BV", .var cs!"x" (.bv 8)]

theorem reads_ix {g : List Char} {is xs : List Sexp} {us ts : List (T D)} (hi : ReadsL [] false is us) (hs : ReadsL [] false xs ts) :
    Reads [] false (.list (.list (.atom cs!"_" :: .atom g :: is) :: xs)) (ix g us ts) := .indexed hi hs

theorem b_reads : Reads [] false (.list [w cs!"let", .list [.list [w cs!"y", .list [w cs!"bvadd", w cs!"x", w cs!"#x0f", w cs!"x"]]],
    .list [w cs!"and", .list [w cs!"bvult", .list [.list [w cs!"_", w cs!"extract", w cs!"3", w cs!"0"], w cs!"x"],
        .list [w cs!"bvsub", .list [w cs!"bvnot", .list [.list [w cs!"_", w cs!"extract", w cs!"5", w cs!"2"], w cs!"x"]], w cs!"#b0001"]],
      .list [w cs!"=", w cs!"y", .list [w cs!"concat", w cs!"#x1", .list [w cs!"_", w cs!"bv9", w cs!"4"]]]]]) bTerm := by
  have r1 : ∀ {a b : List Char}, ReadsL [] false [w a, w b] [s a, s b] := .cons (reads_sym _) (.cons (reads_sym _) .nil)
  have rx : ReadsL [] false [w cs!"x"] [s cs!"x"] := .cons (reads_sym _) .nil
  have r9 : Reads [] false (.list [w cs!"_", w cs!"bv9", w cs!"4"]) (.mk (.bv cs!"9" 4) []) :=
    .bv (n := cs!"9") (w := cs!"4") ⟨by decide, by decide, by decide⟩
  refine .lets (.cons (reads_app (by decide) (.cons (reads_sym _) r1)) .nil) (reads_app (by decide) (.cons (reads_app (by decide) (.cons
    (reads_ix r1 rx) (.cons ?_ .nil))) (.cons (reads_app (by decide) (.cons (reads_sym _) (.cons ?_ .nil))) .nil)))
  · exact reads_app (by decide) (.cons (reads_app (by decide) (.cons (reads_ix r1 rx) .nil)) (.cons (reads_sym _) .nil))
  · exact reads_app (by decide) (.cons (reads_sym _) (.cons r9 .nil))

theorem b_writes : Script.WritesL [] bScript (bDecls ++ [.assert bTerm none none]) := by
  refine .cons (by decide +kernel) (.logic (by decide)) ?_
  refine .cons (by decide +kernel) (.const (.bv (w := cs!"8") ⟨by decide, by decide, by decide⟩) (by simp [Script.vars, Script.Cmd.vars])) ?_
  exact .cons (by decide +kernel) (.assert (g1 := none) (g2 := none) (a := none) ⟨b_reads, by decide, fun _ h => by cases h⟩ (.inl rfl) (.inl rfl)) .nil

theorem b_sig : sigOf bDecls = ⟨[(cs!"x", .bv 8)], []⟩ := rfl

theorem b_sigOk : SigOk (sigOf bDecls) := by
  rw [b_sig]
  exact ⟨by decide, by simp, by simp, by simp⟩

theorem b_lets : LetsOk (sigOf bDecls) bTerm := by
  have hn : bTerm.names = [cs!"y"] := by decide
  refine ⟨by decide, ?_, ?_⟩ <;> rw [hn]
  · simp [b_sig]
  · intro n hm
    simp only [List.mem_cons, List.not_mem_nil, or_false] at hm
    subst hm
    exact not_const (by decide) (by decide)

theorem numeral_s {G : Sig} {n : List Char} (h : Tok.Digits n) (hd : G.vars.lookup n = none) : Numeral G (s n) := ⟨n, false, rfl, h, hd⟩

theorem b_fits : Fits (sigOf bDecls) false false bTerm := by
  have n0 : Numeral (sigOf bDecls) (s cs!"0") := numeral_s ⟨by decide, by decide⟩ rfl
  have n2 : Numeral (sigOf bDecls) (s cs!"2") := numeral_s ⟨by decide, by decide⟩ rfl
  have n3 : Numeral (sigOf bDecls) (s cs!"3") := numeral_s ⟨by decide, by decide⟩ rfl
  have n5 : Numeral (sigOf bDecls) (s cs!"5") := numeral_s ⟨by decide, by decide⟩ rfl
  have hv : Varies (sigOf bDecls) (ap cs!"bvnot" [ix cs!"extract" [s cs!"5", s cs!"2"] [s cs!"x"]]) := by
    refine .inr ⟨⟨.bvOp 0, by decide⟩, .inl (.inr ⟨⟨.bvOp 20, by decide⟩, .inl ⟨by decide, by decide, ?_⟩⟩)⟩
    rw [b_sig]; simp
  simp only [s] at n0 n2 n3 n5
  simp only [ap, ix, s, List.length_cons, List.length_nil, List.cons_append, List.nil_append] at hv
  simp [bTerm, ap, ix, s, Fits, FitsL, Tag.fits, Tag.reals, relations, wrongFold, foldOps, strFolds, strInts, intOps, realOps, wrongWidth, n0, n2, n3, n5, VariesL, hv]

theorem b_arith : Arith false false (forLogic c0 (Script.logicOf bDecls)) :=
  ⟨fun i => by simp only [forLogic, c0, id]; constructor <;> norm_cast, by decide, by decide⟩

/-- the declarations of the script -/
def bG : Sig := ⟨[(cs!"x", .bv 8)], []⟩

theorem bv_as {ρ : Env} {G : Sig} {Δ : List (List Char × Val)} {o : List Char} {n : Nat} {ts : List (T D)} {vs : List Val} {v v' : Val}
    (hI : Interprets ρ) (ha : BvApp o n vs v') (e : v' = v) (h : MeansL ρ G Δ ts vs) : Means ρ G Δ (.mk (.app o n) ts) v := e ▸ .bv hI h ha

theorem hex_as {ρ : Env} {G : Sig} {Δ : List (List Char × Val)} {ds : List Char} {v : Val} (h1 : ds ≠ []) (h2 : ∀ c ∈ ds, c ∈ hexChars)
    (h3 : ds.length < 100) (h4 : Δ.lookup ('#' :: 'x' :: ds) = none) (h5 : G.vars.lookup ('#' :: 'x' :: ds) = none)
    (h6 : G.vars.lookup ('|' :: ('#' :: 'x' :: ds) ++ ['|']) = none) (e : bvVal (BitVec.ofNat (4 * ds.length) (hexVal ds)) = v) :
    Means ρ G Δ (s ('#' :: 'x' :: ds)) v := by
  subst e
  have : 0 < ds.length := List.length_pos_iff.2 h1
  exact .hex h1 h2 ⟨by omega, by omega⟩ h4 h5 h6

theorem wd_small {w : Nat} (h : 0 < w ∧ w < 100) : Wd w := ⟨h.1, by omega⟩

theorem bx {Δ : List (List Char × Val)} (h : Δ.lookup cs!"x" = none) : Means (bvEnv 5#8) bG Δ (s cs!"x") (bvVal 5#8) :=
  var_means (.bv 8) (by decide) (by decide) h rfl .bv (by decide +kernel)

theorem bn {Δ : List (List Char × Val)} {n : List Char} (k : Nat) (h1 : Δ.lookup n = none) (h2 : Tok.Digits n) (h3 : n ≠ cs!"x") (h4 : undec n = k) :
    Means (bvEnv 5#8) bG Δ (s n) (.n k) := lit_means h1 (by simp [bG, h3]) h2 (by rw [h4])

theorem b_means : Means (bvEnv 5#8) (sigOf bDecls) [] bTerm (.b true) := by
  show Means (bvEnv 5#8) bG [] bTerm (.b true)
  have hI := bvEnv_interprets 5#8
  have h1 : Means (bvEnv 5#8) bG [] (ap cs!"bvadd" [s cs!"x", s cs!"#x0f", s cs!"x"]) (bvVal 25#8) :=
    bv_as hI (.left 5#8 15#8 [5#8] (f := fun _ x y => x + y) (by simp [leftTable]) (wd_small (by decide))) (by decide +kernel)
      (.cons (bx rfl) (.cons (hex_as (ds := cs!"0f") (by decide) (by decide) (by decide) rfl rfl rfl (by decide +kernel)) (.cons (bx rfl) .nil)))
  have h2 : ∀ Δ : List (List Char × Val), Δ.lookup cs!"x" = none → Δ.lookup cs!"3" = none → Δ.lookup cs!"0" = none →
      Means (bvEnv 5#8) bG Δ (ix cs!"extract" [s cs!"3", s cs!"0"] [s cs!"x"]) (bvVal 5#4) := fun Δ d1 d2 d3 =>
    bv_as hI (.extract 5#8 3 0 (wd_small (by decide)) (by decide) (by decide)) (by decide +kernel)
      (.cons (bn 3 d2 ⟨by decide, by decide⟩ (by decide) (by decide)) (.cons (bn 0 d3 ⟨by decide, by decide⟩ (by decide) (by decide)) (.cons (bx d1) .nil)))
  have h3 : ∀ Δ : List (List Char × Val), Δ.lookup cs!"x" = none → Δ.lookup cs!"5" = none → Δ.lookup cs!"2" = none →
      Means (bvEnv 5#8) bG Δ (ix cs!"extract" [s cs!"5", s cs!"2"] [s cs!"x"]) (bvVal 1#4) := fun Δ d1 d2 d3 =>
    bv_as hI (.extract 5#8 5 2 (wd_small (by decide)) (by decide) (by decide)) (by decide +kernel)
      (.cons (bn 5 d2 ⟨by decide, by decide⟩ (by decide) (by decide)) (.cons (bn 2 d3 ⟨by decide, by decide⟩ (by decide) (by decide)) (.cons (bx d1) .nil)))
  have h4 : ∀ Δ : List (List Char × Val), Δ.lookup cs!"#b0001" = none → Means (bvEnv 5#8) bG Δ (s cs!"#b0001") (bvVal 1#4) := fun Δ d =>
    .bin (ph := false) 1#4 (wd_small (by decide)) d rfl rfl
  refine .lets (xs := [bvVal 25#8]) rfl (.cons h1 .nil) ?_
  refine op2 (k := .and) (by decide) (x := .b true) (y := .b true) ?_ ?_ rfl
  · refine bv_as hI (.cmp 5#4 13#4 (f := fun _ x y => decide (x.toNat < y.toNat)) (by simp [cmpTable]) (wd_small (by decide))) (by decide +kernel)
      (.cons (h2 _ rfl rfl rfl) (.cons ?_ .nil))
    refine bv_as hI (.bin 14#4 1#4 (f := fun _ x y => x - y) (by simp [binTable]) (wd_small (by decide))) (by decide +kernel)
      (.cons ?_ (.cons (h4 _ rfl) .nil))
    exact bv_as hI (.not 1#4 (wd_small (by decide))) (by decide +kernel) (.cons (h3 _ rfl rfl rfl) .nil)
  · refine op2 (k := .eq) (by decide) (x := bvVal 25#8) (y := bvVal 25#8) (.bound (by decide) (by decide) rfl) ?_ (by decide +kernel)
    refine bv_as hI (.concat 1#4 9#4 (wd_small (by decide)) (wd_small (by decide)) (wd_small (by decide))) (by decide +kernel)
      (.cons (hex_as (ds := cs!"1") (by decide) (by decide) (by decide) rfl rfl rfl (by decide +kernel)) (.cons ?_ .nil))
    have := Means.bvn (ρ := bvEnv 5#8) (G := bG) (Δ := [(cs!"y", bvVal 25#8)]) (w := 4) (ds := cs!"9") (wd_small (by decide)) ⟨by decide, by decide⟩
    exact (show bvVal (BitVec.ofNat 4 (undec cs!"9")) = bvVal 9#4 by decide +kernel) ▸ this

/-- the script meets the hypotheses of `script_means_partial` -/
example (rest : Ctors SMT.Term) (rlit : Leaf.Lit → Res SMT.Term) : ∃ (st : Script.S) (k : Nat) (t : T Sorts.Srt) (n : SMT.Term),
    (∀ m, k ≤ m → Script.parseStr ⟨false, false⟩ m Script.fresh (Script.lines bScript) = .ok st) ∧ st.asserts = [t] ∧
      (∀ s0, Script.Represents bDecls s0 → node (ctxOf c0 s0) rest rlit (t.map sortOf) = .ok n) ∧ eval (bvEnv 5#8) n = some (.b true) := by
  obtain ⟨st, k, h1, h2, h3⟩ := script_means_partial (arith := false) (reals := false) (c := c0) (rest := rest) (rlit := rlit)
    (by simp [bScript, Script.lines]) (Script.script_lines b_writes)
  obtain ⟨t, n, a1, a2, a3⟩ := h3 bDecls bTerm none none [] rfl (by simp [NoDefs, bDecls, Script.functions, Script.Cmd.fn]) b_arith b_sigOk b_lets
    b_fits ⟨bvEnv 5#8, _, b_means⟩
  refine ⟨st, k, t, n, h1, ?_, a2, a3 _ _ b_means⟩
  have hl : st.asserts.length = 1 := h2
  match e : st.asserts, hl with
  | [t'], _ => rw [e] at a1; simp [bDecls, Script.assertions, Script.Cmd.assertion] at a1; rw [a1]

/-- a binary constant -/
def bl {w : Nat} (x : BitVec w) : T D := s (BV.lit x)

/-- operators on constants only: they are computed, and rightly -/
def bvConstTerm : T D := ap cs!"and" [
  ap cs!"=" [ap cs!"bvsdiv" [bl 9#4, bl 3#4], bl 14#4],
  ap cs!"=" [ap cs!"bvudiv" [s cs!"#x5", bl 3#4], bl 1#4],
  ap cs!"=" [ap cs!"bvudiv" [bl 5#4, bl 0#4], bl 15#4],
  ap cs!"=" [ap cs!"bvsmod" [bl 5#4, bl 13#4], bl 15#4],
  ap cs!"=" [ap cs!"bvlshr" [bl 8#4, bl 1#4], bl 4#4],
  ap cs!"=" [ap cs!"bvshl" [bl 5#4, bl 0#4], bl 5#4]]

theorem bvConst_fits : Fits bG true false bvConstTerm := by
  have l : ∀ x : BitVec 4, bG.vars.lookup (BV.lit x) = none := by
    intro x
    have : (BV.lit x == cs!"x") = false := by simp [BV.lit]
    simp [bG, List.lookup_cons, this]
  have b : ∀ x : BitVec 4, BvLit bG (bl x) x := fun x => .bin x (l x)
  have h5 : BvLit bG (s cs!"#x5") 5#4 := .hex (ds := cs!"5") rfl
  have f1 : FoldsRightBv bG cs!"bvsdiv" [bl 9#4, bl 3#4] := ⟨_, _, _, _, _, rfl, b _, b _, by unfold BvRight; decide⟩
  have f2 : FoldsRightBv bG cs!"bvudiv" [s cs!"#x5", bl 3#4] := ⟨_, _, _, _, _, rfl, h5, b _, by unfold BvRight; decide⟩
  have f3 : FoldsRightBv bG cs!"bvudiv" [bl 5#4, bl 0#4] := ⟨_, _, _, _, _, rfl, b _, b _, by unfold BvRight; decide⟩
  have f4 : FoldsRightBv bG cs!"bvsmod" [bl 5#4, bl 13#4] := ⟨_, _, _, _, _, rfl, b _, b _, by unfold BvRight; decide⟩
  have f5 : FoldsRightBv bG cs!"bvlshr" [bl 8#4, bl 1#4] := ⟨_, _, _, _, _, rfl, b _, b _, by unfold BvRight; decide⟩
  have f6 : FoldsRightBv bG cs!"bvshl" [bl 5#4, bl 0#4] := ⟨_, _, _, _, _, rfl, b _, b _, by unfold BvRight; decide⟩
  have dot : ∀ x : BitVec 4, '.' ∉ BV.lit x := by decide +kernel
  simp only [s, bl] at f1 f2 f3 f4 f5 f6
  simp [bvConstTerm, bl, ap, s, Fits, FitsL, Tag.fits, Tag.reals, relations, f1, f2, f3, f4, f5, f6, wrongFold, foldOps, strFolds, strInts, intOps,
    realOps, wrongWidth, dot]

theorem bvConst_means : Means (bvEnv 5#8) bG [] bvConstTerm (.b true) := by
  have hI := bvEnv_interprets 5#8
  have w4 : Wd 4 := wd_small (by decide)
  have b : ∀ x : BitVec 4, Means (bvEnv 5#8) bG [] (bl x) (bvVal x) := by
    intro x
    have h1 : (BV.lit x == cs!"x") = false := by simp [BV.lit]
    have h2 : (('|' :: BV.lit x ++ ['|']) == cs!"x") = false := by simp
    exact .bin x w4 rfl (by simp [bG, List.lookup_cons, h1]) (by simp only [bG, List.lookup_cons, h2]; rfl)
  have h5 : Means (bvEnv 5#8) bG [] (s cs!"#x5") (bvVal 5#4) := hex_as (ds := cs!"5") (by decide) (by decide) (by decide) rfl rfl rfl (by decide +kernel)
  have eq : ∀ {t : T D} {x : BitVec 4}, Means (bvEnv 5#8) bG [] t (bvVal x) → Means (bvEnv 5#8) bG [] (ap cs!"=" [t, bl x]) (.b true) :=
    fun {t x} h => op2 (k := .eq) (by decide) (x := bvVal x) (y := bvVal x) h (b x) (by simp [apply, homog, chain, bvVal, Val.sameSort])
  refine .op (k := .and) (vs := [.b true, .b true, .b true, .b true, .b true, .b true]) (by decide)
    (.cons (eq ?_) (.cons (eq ?_) (.cons (eq ?_) (.cons (eq ?_) (.cons (eq ?_) (.cons (eq ?_) .nil)))))) rfl
  · exact bv_as hI (.bin 9#4 3#4 (f := fun _ x y => x.smtSDiv y) (by simp [binTable]) w4) (by decide +kernel) (.cons (b _) (.cons (b _) .nil))
  · exact bv_as hI (.bin 5#4 3#4 (f := fun _ x y => x.smtUDiv y) (by simp [binTable]) w4) (by decide +kernel) (.cons h5 (.cons (b _) .nil))
  · exact bv_as hI (.bin 5#4 0#4 (f := fun _ x y => x.smtUDiv y) (by simp [binTable]) w4) (by decide +kernel) (.cons (b _) (.cons (b _) .nil))
  · exact bv_as hI (.bin 5#4 13#4 (f := fun _ x y => x.smod y) (by simp [binTable]) w4) (by decide +kernel) (.cons (b _) (.cons (b _) .nil))
  · exact bv_as hI (.bin 8#4 1#4 (f := fun _ x y => x >>> y.toNat) (by simp [binTable]) w4) (by decide +kernel) (.cons (b _) (.cons (b _) .nil))
  · exact bv_as hI (.bin 5#4 0#4 (f := fun _ x y => x <<< y.toNat) (by simp [binTable]) w4) (by decide +kernel) (.cons (b _) (.cons (b _) .nil))

theorem bvConst_lets : LetsOk bG bvConstTerm := by
  have hn : bvConstTerm.names = [] := by decide
  constructor <;> rw [hn] <;> simp

/-- the term meets the hypotheses of `node_means` -/
example (rest : Ctors SMT.Term) (rlit : Leaf.Lit → Res SMT.Term) : ∃ n, node (declared c0 bG.vars bG.funs) rest rlit (bvConstTerm.map some) = .ok n ∧
    eval (bvEnv 5#8) n = some (.b true) :=
  node_means (arith := true) (reals := false) ⟨fun i => by simp only [c0, id]; constructor <;> norm_cast, by decide, fun _ => .inl (by decide)⟩
    b_sigOk bvConst_lets bvConst_fits bvConst_means

/-! ## What goes wrong -/

/-- no declarations -/
def G0 : Sig := ⟨[], []⟩

theorem g0_ok : SigOk G0 := ⟨by decide, by simp [G0], by simp [G0], by simp [G0]⟩

theorem node2 (rest : Ctors SMT.Term) (rlit : Leaf.Lit → Res SMT.Term) (o : List Char) {w : Nat} (x y : BitVec w) (hw : Wd w) :
    node (declared c0 G0.vars G0.funs) rest rlit ((ap o [s (BV.lit x), s (BV.lit y)]).map some) =
      callOper (ctors (declared c0 G0.vars G0.funs) rest rlit) o [] [ofConst (BV.con x), ofConst (BV.con y)] := by
  have h1 := leaf_bin (c := c0) (rest := rest) (rlit := rlit) g0_ok (sc := []) x false hw rfl rfl rfl rfl
  have h2 := leaf_bin (c := c0) (rest := rest) (rlit := rlit) g0_ok (sc := []) y false hw rfl rfl rfl rfl
  simp only [node, ap, s, T.map, Tag.map, mapL, build, buildL, h1, h2, Res.ok_bind, Res.pure_eq, List.take_zero, List.drop_zero]

theorem lits_mean {w : Nat} (ρ : Env) (hI : Interprets ρ) {o : List Char} {x y : BitVec w} {v : Val} (hw : Wd w) (h : BvApp o 0 [bvVal x, bvVal y] v) :
    Means ρ G0 [] (ap o [s (BV.lit x), s (BV.lit y)]) v :=
  .bv hI (.cons (.bin x hw rfl rfl rfl) (.cons (.bin y hw rfl rfl rfl) .nil)) h

theorem wrong2 (rest : Ctors SMT.Term) (rlit : Leaf.Lit → Res SMT.Term) {o : List Char} {k : Kind} (ho : (o, k) ∈ bvTable) (hf : fast.lookup o = none)
    (hr : o ≠ cs!"root-obj") {d : Disp} (hd : disp (getOperKind (String.ofList o)) = d) (x y : BitVec 4) {v : Val}
    (h : BvApp o 0 [bvVal x, bvVal y] v) {n : SMT.Term}
    (hn : runCase (ctors (declared c0 G0.vars G0.funs) rest rlit) [] [ofConst (BV.con x), ofConst (BV.con y)] d = .ok n)
    {m : Val} (hm : ∀ ρ, eval ρ n = some m) (hne : m ≠ v) :
    ∃ (e : T D) (v : Val) (n : SMT.Term), (∃ ts, e = ap o ts) ∧ (∀ ρ, Interprets ρ → Means ρ G0 [] e v) ∧
      node (declared c0 G0.vars G0.funs) rest rlit (e.map some) = .ok n ∧ ∀ ρ, eval ρ n ≠ some v := by
  refine ⟨_, v, n, ⟨_, rfl⟩, fun ρ hI => lits_mean ρ hI (wd_small (by decide)) h, ?_, ?_⟩
  · rw [node2 rest rlit o x y (wd_small (by decide)), call_slow g0_ok (List.mem_append_left _ ho) hf hr hd]
    exact hn
  · intro ρ; rw [hm ρ]; simpa using hne

theorem eval_con (ρ : Env) {w : Nat} (x : BitVec w) : eval ρ (ofConst (BV.con x)) = some (bvVal x) := eval_ofConst x

theorem bin_const (c : SMT.Cfg) {o : BV.BinOp} {w : Nat} {x y : BitVec w} {k : BV.Const} (h : BV.foldBin o (BV.con x) (BV.con y) = .ok k) :
    mkBvBin c o (ofConst (BV.con x)) (ofConst (BV.con y)) = .ok (ofConst k) := by
  have e : bvSimp2 o (ofConst (BV.con x)) (ofConst (BV.con y)) = .ok (ofConst k) := by
    unfold bvSimp2; rw [cbv_ofConst, cbv_ofConst]; simp only [h, Res.bind]
  unfold mkBvBin bvOper bvSimp
  simp only [isBvParam, ofConst, Term.sort, Bool.not_true, Bool.or_self, Bool.false_eq_true, if_false] at e ⊢
  rw [e]; rfl

/-- **C80 fails for constants**: for each of the operators in `wrongFold` there is a term of two constants whose node has another value than
what is written, in every assignment. -/
theorem fold_means_violated (rest : Ctors SMT.Term) (rlit : Leaf.Lit → Res SMT.Term) : ∀ o ∈ wrongFold,
    ∃ (e : T D) (v : Val) (n : SMT.Term), (∃ ts, e = ap o ts) ∧ (∀ ρ, Interprets ρ → Means ρ G0 [] e v) ∧
      node (declared c0 G0.vars G0.funs) rest rlit (e.map some) = .ok n ∧ ∀ ρ, eval ρ n ≠ some v := by
  have hw : Wd 4 := wd_small (by decide)
  intro o ho
  simp only [wrongFold, List.mem_cons, List.not_mem_nil, or_false] at ho
  rcases ho with rfl | rfl | rfl | rfl | rfl | rfl | rfl | rfl | rfl
  · exact wrong2 rest rlit (k := .bvOp 9) (by decide) (by decide) (by decide) (d := .all .BV_SUB) (by decide +kernel) 1#4 0#4
      (.bin _ _ (f := fun _ x y => x - y) (by simp [binTable]) hw) (n := ofConst (BV.con 0#4)) (bin_const c0 BV.fold_sub_violated) (eval_con · _) (by decide +kernel)
  · exact wrong2 rest rlit (k := .bvOp 11) (by decide) (by decide) (by decide) (d := .sel .BV_UDIV [.p 0, .p 1]) (by decide +kernel) 3#4 1#4
      (.bin _ _ (f := fun _ x y => x.smtUDiv y) (by simp [binTable]) hw) (n := ofConst (BV.con 1#4)) (bin_const c0 (by decide +kernel)) (eval_con · _) (by decide +kernel)
  · exact wrong2 rest rlit (k := .bvOp 12) (by decide) (by decide) (by decide) (d := .sel .BV_UREM [.p 0, .p 1]) (by decide +kernel) 3#4 5#4
      (.bin _ _ (f := fun _ x y => x.umod y) (by simp [binTable]) hw) (n := ofConst (BV.con 0#4)) (bin_const c0 BV.fold_urem_violated) (eval_con · _) (by decide +kernel)
  · exact wrong2 rest rlit (k := .bvOp 13) (by decide) (by decide) (by decide) (d := .sel .BV_SDIV [.p 0, .p 1]) (by decide +kernel) 3#4 0#4
      (.bin _ _ (f := fun _ x y => x.smtSDiv y) (by simp [binTable]) hw) (n := ofConst (BV.con 3#4)) (bin_const c0 (by decide +kernel)) (eval_con · _) (by decide +kernel)
  · exact wrong2 rest rlit (k := .bvOp 15) (by decide) (by decide) (by decide) (d := .sel .BV_SMOD [.p 0, .p 1]) (by decide +kernel) 15#4 14#4
      (.bin _ _ (f := fun _ x y => x.smod y) (by simp [binTable]) hw) (n := ofConst (BV.con 1#4)) (bin_const c0 (by decide +kernel)) (eval_con · _) (by decide +kernel)
  · exact wrong2 rest rlit (k := .bvOp 16) (by decide) (by decide) (by decide) (d := .sel .BV_SHL [.p 0, .p 1]) (by decide +kernel) 1#4 2#4
      (.bin _ _ (f := fun _ x y => x <<< y.toNat) (by simp [binTable]) hw) (n := ofConst (BV.con 0#4)) (bin_const c0 (by decide +kernel)) (eval_con · _) (by decide +kernel)
  · exact wrong2 rest rlit (k := .bvOp 17) (by decide) (by decide) (by decide) (d := .sel .BV_LSHR [.p 0, .p 1]) (by decide +kernel) 8#4 2#4
      (.bin _ _ (f := fun _ x y => x >>> y.toNat) (by simp [binTable]) hw) (n := ofConst (BV.con 0#4)) (bin_const c0 (by decide +kernel)) (eval_con · _) (by decide +kernel)
  · exact wrong2 rest rlit (k := .bvOp 18) (by decide) (by decide) (by decide) (d := .sel .BV_ASHR [.p 0, .p 1]) (by decide +kernel) 4#4 2#4
      (.bin _ _ (f := fun _ x y => x.sshiftRight y.toNat) (by simp [binTable]) hw) (n := ofConst (BV.con 0#4)) (bin_const c0 (by decide +kernel)) (eval_con · _) (by decide +kernel)
  · exact wrong2 rest rlit (k := .bvOp 24) (by decide) (by decide) (by decide) (d := .sel .BV_COMP [.p 0, .p 1]) (by decide +kernel) 4#4 4#4
      (.comp _ _ hw) (n := .ff) rfl (m := .b false) (fun _ => by simp [eval]) (by decide +kernel)

theorem ext_node (rest : Ctors SMT.Term) (rlit : Leaf.Lit → Res SMT.Term) (o : List Char) :
    node (declared c0 bG.vars bG.funs) rest rlit ((ix o [s cs!"4"] [s cs!"x"]).map some) =
      callOper (ctors (declared c0 bG.vars bG.funs) rest rlit) o [.cint (4 : Nat)] [.var .var (.bv 8) "x"] := by
  have hG : SigOk bG := b_sigOk
  obtain ⟨t4, e1, e2, _, e3, _⟩ := leaf_lit (r := false) (ρ := bvEnv 0#8) (c := c0) (rest := rest) (rlit := rlit) hG (sc := []) (s := cs!"4") false
    (.num ⟨by decide, by decide⟩) (by decide) rfl rfl rfl
  have e4 : t4 = .cint (4 : Nat) := cint_of_eval (n := 4) (by rw [e2]; rfl) (e3 ⟨by decide, by decide⟩)
  subst e4
  have hx : (ctors (declared c0 bG.vars bG.funs) rest rlit).leaf [] cs!"x" false = .ok (.var .var (.bv 8) "x") :=
    leaf_var (c := c0) (rest := rest) (rlit := rlit) hG (sc := []) (s := cs!"x") false (d := .bv 8) (by decide) (by decide) rfl rfl rfl
  simp only [node, ix, s, T.map, Tag.map, mapL, build, buildL, List.cons_append, List.nil_append, e1, hx, Res.ok_bind, Res.pure_eq, List.length_cons,
    List.length_nil, List.take_succ_cons, List.take_zero, List.drop_succ_cons, List.drop_zero]

theorem ext_args (x : BitVec 8) : MeansL (bvEnv x) bG [] [s cs!"4", s cs!"x"] [.n (4 : Nat), bvVal x] :=
  .cons (lit_means rfl rfl ⟨by decide, by decide⟩ (by decide +kernel))
    (.cons (var_means (.bv 8) (by decide) (by decide) rfl rfl .bv ((hasSort_bv x _).2 rfl)) .nil)

/-- **C80 fails for the extensions**: the node of `((_ zero_extend 4) x)` or `((_ sign_extend 4) x)`, with an `x` of 8 bits, has the sort of
4 bits, and never the value that is written. -/
theorem extend_means_violated (rest : Ctors SMT.Term) (rlit : Leaf.Lit → Res SMT.Term) : ∀ o ∈ wrongWidth,
    ∃ n, node (declared c0 bG.vars bG.funs) rest rlit ((ix o [s cs!"4"] [s cs!"x"]).map some) = .ok n ∧ n.sort = .bv 4 ∧
      ∀ x : BitVec 8, ∃ v, Means (bvEnv x) bG [] (ix o [s cs!"4"] [s cs!"x"]) v ∧ eval (bvEnv x) n ≠ some v := by
  have hG : SigOk bG := b_sigOk
  have hv : ∀ (ρ : Env) (t : SMT.Term) (x : BitVec 12), t.sort = .bv 4 → eval ρ t ≠ some (bvVal x) := by
    intro ρ t x h1 h2
    have := sort_of_eval h2
    rw [h1] at this
    cases this
  intro o ho
  simp only [wrongWidth, List.mem_cons, List.not_mem_nil, or_false] at ho
  rcases ho with rfl | rfl
  · refine ⟨.app (.bvOp 25) (.bv 4) [.var .var (.bv 8) "x", .cint (4 : Nat)], ?_, rfl, fun x => ⟨bvVal (x.zeroExtend 12), ?_, hv _ _ _ rfl⟩⟩
    · rw [ext_node, call_slow (k := .bvOp 25) hG (by decide) (by decide) (by decide) (d := .sel .BV_ZERO_EXT [.p 0, .a 0]) (by decide +kernel)]
      show mkBvIx .BV_ZERO_EXT (.var .var (.bv 8) "x") (.cint (4 : Nat)) = _
      unfold mkBvIx
      simp only [toULong_ok (show 4 < BV.ulim by rw [BV.ulim_eq]; decide), Res.ok_bind]
      rfl
    · exact .bv (bvEnv_interprets x) (ext_args x) (.zext x 4 (wd_small (by decide)) (wd_small (by decide)))
  · refine ⟨.app (.bvOp 26) (.bv 4) [.var .var (.bv 8) "x", .cint (4 : Nat)], ?_, rfl, fun x => ⟨bvVal (x.signExtend 12), ?_, hv _ _ _ rfl⟩⟩
    · rw [ext_node, call_slow (k := .bvOp 26) hG (by decide) (by decide) (by decide) (d := .sel .BV_SIGN_EXT [.p 0, .a 0]) (by decide +kernel)]
      show mkBvIx .BV_SIGN_EXT (.var .var (.bv 8) "x") (.cint (4 : Nat)) = _
      unfold mkBvIx
      simp only [toULong_ok (show 4 < BV.ulim by rw [BV.ulim_eq]; decide), Res.ok_bind]
      rfl
    · exact .bv (bvEnv_interprets x) (ext_args x) (.sext x 4 (wd_small (by decide)) (wd_small (by decide)))

/-- **C80 fails for captured constants**: if a constant `|#b01|` is declared, the literal `#b01` is read as that constant. -/
theorem literal_captured_violated (rest : Ctors SMT.Term) (rlit : Leaf.Lit → Res SMT.Term) :
    node (declared c0 [(cs!"|#b01|", .bv 2)] []) rest rlit ((s cs!"#b01").map some) = .ok (.var .var (.bv 2) "|#b01|") := rfl

end SMT.Mean
