import Verif.Mean.BvCall
import Verif.Mean.StrCall
import Verif.Script.Props

/-! # C79, C80, C83, C84: what is read means what is written -/

namespace SMT.Mean
open SMT SMT.Text SMT.Kinds SMT.Sorts SMT.Parse SMT.Leaf SMT.Term SMT.Eval

set_option linter.unusedSimpArgs false
set_option linter.unusedVariables false

section
variable {arith reals : Bool} {ρ : Env} {G : Sig} {c : SMT.Cfg} {rest : Ctors SMT.Term} {rlit : Leaf.Lit → Res SMT.Term}

/-- what the form of the written term says about its node -/
structure Looks (G : Sig) (reals : Bool) (e : T D) (t : SMT.Term) : Prop where
  varies : Varies G e → NoLit t
  numeral : Numeral G e → ∃ z, t = .cint z
  sort : ∀ d, d = .int ∨ d = .real → OfSort G reals d e → t.sort = toSrt d ∨ t.sort = .ior
  strict : ∀ d, Strictly G d e → t.sort = toSrt d

/-- the node made in every scope that says what the lets around say -/
def Good (arith reals : Bool) (ρ : Env) (G : Sig) (c : SMT.Cfg) (rest : Ctors SMT.Term) (rlit : Leaf.Lit → Res SMT.Term)
    (Δ : List (List Char × Val)) (e : T D) (v : Val) : Prop :=
  ∀ sc, Covers reals ρ G Δ sc → Fits G arith reals e → e.names.Nodup → (∀ n ∈ e.names, Free G sc n) →
    ∃ t, build (ctors (declared c G.vars G.funs) rest rlit) sc (e.map some) = .ok t ∧ eval ρ t = some v ∧ Std reals t = true ∧ Looks G reals e t

theorem letsOf_val (n : List Char) (t : SMT.Term) (sc : Names SMT.Term) : letsOf ((n, .val t) :: sc) = (n, t) :: letsOf sc := rfl

theorem Covers.more {Δ Δ' : List (List Char × Val)} {sc : Names SMT.Term} {n : List Char} {x : Val} {t : SMT.Term} (h : Covers reals ρ G Δ sc)
    (hn : Free G sc n) (he : eval ρ t = some x) (hs : Std reals t = true)
    (hΔ : ∀ m, Δ'.lookup m = if m = n then some x else Δ.lookup m) : Covers reals ρ G Δ' ((n, .val t) :: sc) := by
  constructor
  · exact h.noQuants
  · intro m v hm
    rw [hΔ] at hm
    rw [letsOf_val, List.lookup_cons]
    by_cases e : m = n
    · subst e
      rw [if_pos rfl] at hm
      cases hm
      exact ⟨t, by simp, he, hs⟩
    · rw [if_neg e] at hm
      rw [show (m == n) = false by simpa using e]
      exact h.known m v hm
  · intro m u hu
    rw [letsOf_val, List.lookup_cons] at hu
    by_cases e : m = n
    · subst e; exact hn.2
    · rw [show (m == n) = false by simpa using e] at hu
      exact h.apart m u hu

theorem Covers.hide {Δ : List (List Char × Val)} {sc : Names SMT.Term} {n : List Char} {t : SMT.Term} (h : Covers reals ρ G Δ sc)
    (hn : Free G sc n) : Covers reals ρ G Δ ((n, .val t) :: sc) := by
  constructor
  · exact h.noQuants
  · intro m v hm
    obtain ⟨u, h1, h2⟩ := h.known m v hm
    refine ⟨u, ?_, h2⟩
    rw [letsOf_val, List.lookup_cons]
    have e : m ≠ n := by rintro rfl; rw [hn.1] at h1; cases h1
    rw [show (m == n) = false by simpa using e]
    exact h1
  · intro m u hu
    rw [letsOf_val, List.lookup_cons] at hu
    by_cases e : m = n
    · subst e; exact hn.2
    · rw [show (m == n) = false by simpa using e] at hu
      exact h.apart m u hu

theorem Covers.fresh {Δ : List (List Char × Val)} {sc : Names SMT.Term} {n : List Char} (h : Covers reals ρ G Δ sc) (hn : Free G sc n) :
    Δ.lookup n = none := by
  cases e : Δ.lookup n with
  | none => rfl
  | some v => obtain ⟨t, h1, _⟩ := h.known n v e; rw [hn.1] at h1; cases h1

theorem Free.next {sc : Names SMT.Term} {n m : List Char} {t : SMT.Term} (h : Free G sc m) (hm : m ≠ n) : Free G ((n, .val t) :: sc) m := by
  refine ⟨?_, h.2⟩
  rw [letsOf_val, List.lookup_cons, show (m == n) = false by simpa using hm]
  exact h.1

theorem good_list {Δ : List (List Char × Val)} {ts : List (T D)} {vs : List Val}
    (h : All2 (fun t v => Good arith reals ρ G c rest rlit Δ t v) ts vs) {sc : Names SMT.Term} (hc : Covers reals ρ G Δ sc)
    (hf : FitsL G arith reals ts) (hn : (namesL ts).Nodup) (hb : ∀ n ∈ namesL ts, Free G sc n) :
    ∃ us, buildL (ctors (declared c G.vars G.funs) rest rlit) sc (mapL some ts) = .ok us ∧ evalL ρ us = some vs ∧
      (∀ t ∈ us, Std reals t = true) ∧ us.length = ts.length ∧
      All2 (fun u t => Looks G reals t u) us ts := by
  induction h with
  | nil => exact ⟨[], rfl, rfl, by simp, rfl, .nil⟩
  | @cons t v ts vs h1 _ ih =>
    simp only [FitsL] at hf
    simp only [namesL, List.nodup_append] at hn
    simp only [namesL, List.mem_append] at hb
    obtain ⟨u, a1, a2, a3, a4⟩ := h1 sc hc hf.1 hn.1 fun n hm => hb n (.inl hm)
    obtain ⟨us, b1, b2, b3, b4, b5⟩ := ih hf.2 hn.2.1 fun n hm => hb n (.inr hm)
    refine ⟨u :: us, ?_, ?_, ?_, by simp [b4], .cons a4 b5⟩
    · simp only [mapL, buildL, a1, b1, Res.ok_bind]; rfl
    · simp [evalL, a2, b2]
    · intro t ht
      rcases List.mem_cons.1 ht with rfl | ht
      · exact a3
      · exact b3 t ht

theorem fitsL_append : ∀ {a b : List (T D)}, FitsL G arith reals (a ++ b) → FitsL G arith reals a ∧ FitsL G arith reals b
  | [], _, h => ⟨trivial, h⟩
  | _ :: a, b, h => ⟨⟨h.1, (fitsL_append (a := a) h.2).1⟩, (fitsL_append (a := a) h.2).2⟩

theorem good_lets {Δ : List (List Char × Val)} {b : T D} {v : Val} {ts : List (T D)} {xs : List Val}
    (h : All2 (fun t v => Good arith reals ρ G c rest rlit Δ t v) ts xs) : ∀ {ns : List (List Char)} {don : List (List Char × Val)}
    {sc : Names SMT.Term}, ns.length = ts.length → Good arith reals ρ G c rest rlit (don ++ (ns.zip xs ++ Δ)) b v →
    Covers reals ρ G Δ sc → Covers reals ρ G (don ++ Δ) sc → FitsL G arith reals ts → Fits G arith reals b →
    (ns ++ namesL (ts ++ [b])).Nodup → (∀ n ∈ ns ++ namesL (ts ++ [b]), Free G sc n) →
    ∃ t, buildLets (ctors (declared c G.vars G.funs) rest rlit) sc ns (mapL some (ts ++ [b])) = .ok t ∧ eval ρ t = some v ∧
      Std reals t = true := by
  induction h with
  | nil =>
    intro ns don sc hl hb _ hc _ hf hn hfree
    cases ns with
    | cons _ _ => simp at hl
    | nil =>
      simp only [List.nil_append, namesL, List.append_nil, List.zip_nil_left] at hn hfree hb
      obtain ⟨t, h1, h2, h3, _⟩ := hb sc hc hf hn hfree
      exact ⟨t, by simpa only [List.nil_append, mapL, buildLets] using h1, h2, h3⟩
  | @cons t x ts xs h1 _ ih =>
    intro ns don sc hl hb hc hcd hf hfb hn hfree
    cases ns with
    | nil => simp at hl
    | cons n ns =>
      simp only [List.length_cons, Nat.add_right_cancel_iff] at hl
      simp only [List.cons_append, namesL, List.nodup_cons, List.mem_append, List.mem_cons] at hn hfree
      obtain ⟨hnot, hn⟩ := hn
      have hnt : t.names.Nodup := (List.nodup_append.1 (List.nodup_append.1 hn).2.1).1
      obtain ⟨u, a1, a2, a3, _⟩ := h1 sc hc hf.1 hnt fun m hm => hfree m (.inr (.inr (.inl hm)))
      have hfn : Free G sc n := hfree n (.inl rfl)
      have hd : don.lookup n = none := by
        have := hcd.fresh hfn
        rw [lookup_app] at this
        cases e : don.lookup n with
        | none => rfl
        | some y => rw [e] at this; cases this
      obtain ⟨r, b1, b2⟩ := ih (ns := ns) (don := don ++ [(n, x)]) (sc := (n, .val u) :: sc) hl
        (by simpa only [List.append_assoc, List.cons_append, List.nil_append, List.zip_cons_cons] using hb)
        (hc.hide hfn)
        (hcd.more hfn a2 a3 (by
          intro m
          rw [List.append_assoc, lookup_app, lookup_app]
          by_cases e : m = n
          · subst e; simp [hd]
          · rw [if_neg e, lookup_app, List.lookup_cons, show (m == n) = false by simpa using e]; rfl))
        hf.2 hfb
        (by
          refine List.nodup_append.2 ⟨(List.nodup_append.1 hn).1, (List.nodup_append.1 (List.nodup_append.1 hn).2.1).2.1, ?_⟩
          intro a ha d hd
          exact (List.nodup_append.1 hn).2.2 a ha d (List.mem_append.2 (.inr hd)))
        (by
          intro m hm
          rw [List.mem_append] at hm
          refine (hfree m (.inr (hm.imp id .inr))).next ?_
          rintro rfl
          exact hnot (hm.imp id .inr))
      exact ⟨r, by simp only [List.cons_append, mapL, buildLets, a1, Res.ok_bind]; exact b1, b2⟩

/-- the operands after the first `n` -/
theorem varies_mem {us : List SMT.Term} {ts : List (T D)}
    (h : All2 (fun u t => Looks G reals t u) us ts) :
    ∀ n, VariesL G n ts → ∃ u ∈ us.drop n, NoLit u := by
  induction h with
  | nil => intro n h; cases n <;> simp [VariesL] at h
  | @cons u t us ts h1 _ ih =>
    intro n h
    cases n with
    | zero =>
      simp only [VariesL] at h
      rcases h with h | h
      · exact ⟨u, by simp, h1.varies h⟩
      · obtain ⟨x, hx, hc⟩ := ih 0 h
        exact ⟨x, List.mem_cons_of_mem _ hx, hc⟩
    | succ n =>
      simp only [VariesL] at h
      simpa using ih n h

theorem indices_mem {us : List SMT.Term} {ts : List (T D)}
    (h : All2 (fun u t => Looks G reals t u) us ts) :
    ∀ n, (∀ t ∈ ts.take n, Numeral G t) → ∀ u ∈ us.take n, ∃ z, u = .cint z := by
  induction h with
  | nil => intro n _ u hu; simp at hu
  | @cons u t us ts h1 _ ih =>
    intro n h
    cases n with
    | zero => intro u hu; simp at hu
    | succ n =>
      simp only [List.take_succ_cons, List.mem_cons, forall_eq_or_imp] at h ⊢
      exact ⟨h1.numeral h.1, ih n h.2⟩

/-- the operands of a sort -/
theorem sorts_mem {us : List SMT.Term} {ts : List (T D)} (h : All2 (fun u t => Looks G reals t u) us ts) {d : D} (hd : d = .int ∨ d = .real) :
    ∀ n, OfSortL G reals d n ts → ∀ u ∈ us.drop n, u.sort = toSrt d ∨ u.sort = .ior := by
  induction h with
  | nil => intro n _ u hu; simp at hu
  | @cons u t us ts h1 _ ih =>
    intro n h
    cases n with
    | zero =>
      simp only [OfSortL] at h
      intro x hx
      rcases List.mem_cons.1 hx with rfl | hx
      · exact h1.sort d hd h.1
      · exact ih 0 h.2 x hx
    | succ n =>
      simp only [OfSortL] at h
      simpa using ih n h

theorem strict_mem {us : List SMT.Term} {ts : List (T D)} (h : All2 (fun u t => Looks G reals t u) us ts) {d : D} (hs : AnyStrictly G d ts) :
    ∃ u ∈ us, u.sort = toSrt d := by
  induction h with
  | nil => simp [AnyStrictly] at hs
  | @cons u t us ts h1 _ ih =>
    simp only [AnyStrictly] at hs
    rcases hs with hs | hs
    · exact ⟨u, by simp, h1.strict d hs⟩
    · obtain ⟨x, hx, e⟩ := ih hs
      exact ⟨x, List.mem_cons_of_mem _ hx, e⟩

/-! ## The sorts of sums, products and conditionals -/

theorem some_sort {t : SMT.Term} {v : Val} (he : eval ρ t = some v) : t.sort ≠ .unk ∧ t.sort ≠ .null := by
  have key : ∀ σ : SMT.Srt, v.hasSort σ = true → σ ≠ .unk ∧ σ ≠ .null := by
    intro σ h; constructor <;> rintro rfl <;> cases v <;> simp [Val.hasSort] at h
  cases t with
  | tt => exact ⟨by simp [SMT.Term.sort], by simp [SMT.Term.sort]⟩
  | ff => exact ⟨by simp [SMT.Term.sort], by simp [SMT.Term.sort]⟩
  | cint i => exact ⟨by simp [SMT.Term.sort], by simp [SMT.Term.sort]⟩
  | creal n q => exact ⟨by simp [SMT.Term.sort], by simp [SMT.Term.sort]⟩
  | clit σ x => simp only [eval] at he; exact key _ (guardSort_some.1 he).2
  | var vk σ x => simp only [eval] at he; exact key _ (guardSort_some.1 he).2
  | app k σ ts => rw [eval_app] at he; exact key _ (guardSort_some.1 he).2
  | unknown => simp [eval] at he
  | err => simp [eval] at he

theorem srtd_some {s : SMT.Srt} {t : SMT.Term} {v : Val} (h : Srtd s t) (he : eval ρ t = some v) : t.sort = s ∨ t.sort = .ior := by
  rcases h with h | h | h | h
  · exact .inl h
  · exact .inr h
  · exact absurd h (some_sort he).1
  · exact absurd h (some_sort he).2

theorem srtd_of {s : SMT.Srt} {t : SMT.Term} (h : t.sort = s ∨ t.sort = .ior) : Srtd s t := h.imp id .inl

theorem ite_sort {a x y t : SMT.Term} {s : SMT.Srt} {v w : Val} (hx : x.sort = s ∨ x.sort = .ior) (hy : y.sort = s ∨ y.sort = .ior)
    (ha : eval ρ a = some w) (h : callOper (ctors (declared c G.vars G.funs) rest rlit) cs!"ite" [] [a, x, y] = .ok t) (he : eval ρ t = some v) :
    t.sort = s ∨ t.sort = .ior := by
  rw [call_fast (d := .all .ITE) (by decide)] at h
  have h' : Res.ok (mkIte c a x y) = Res.ok t := h
  cases h'
  exact srtd_some (srtd_mkIte c (srtd_of hx) (srtd_of hy) (by cases a <;> simp_all [eval, SMT.Term.isErr])) he

theorem neg_sort {u t : SMT.Term} {s : SMT.Srt} {v : Val} (hu : u.sort = s ∨ u.sort = .ior)
    (h : callOper (ctors (declared c G.vars G.funs) rest rlit) cs!"-" [] [u] = .ok t) (he : eval ρ t = some v) : t.sort = s ∨ t.sort = .ior := by
  rw [call_fast (d := .all .SUB) (by decide)] at h
  have h' : Res.ok (mkNeg c u) = Res.ok t := h
  cases h'
  exact srtd_some (srtd_mkNeg c (srtd_of hu)) he

theorem fold_sort {o : List Char} {us : List SMT.Term} {t : SMT.Term} {s : SMT.Srt} {v : Val} (ho : o ∈ [cs!"+", cs!"-", cs!"*"])
    (hus : ∀ u ∈ us, u.sort = s ∨ u.sort = .ior) (ht : Theory c s us)
    (h : callOper (ctors (declared c G.vars G.funs) rest rlit) o [] us = .ok t) (he : eval ρ t = some v) : t.sort = s ∨ t.sort = .ior := by
  simp only [List.mem_cons, List.not_mem_nil, or_false] at ho
  rcases ho with rfl | rfl | rfl
  · rw [call_fast (d := .all .ADD) (by decide)] at h
    have h' : Res.ok (mkAdd c us) = Res.ok t := h
    cases h'
    exact srtd_some (srtd_mkAdd ht fun u hu => srtd_of (hus u hu)) he
  · rw [call_fast (d := .all .SUB) (by decide)] at h
    have h' : Res.ok (mkSub c us) = Res.ok t := h
    cases h'
    exact srtd_some (srtd_mkSub ht fun u hu => srtd_of (hus u hu)) he
  · rw [call_fast (d := .all .MUL) (by decide)] at h
    have h' : Res.ok (mkMul c us) = Res.ok t := h
    cases h'
    exact srtd_some (srtd_mkMul ht fun u hu => srtd_of (hus u hu)) he

/-- the sort of the node made for an operator of the core theory or of arithmetic -/
theorem op_sort (hc : Arith arith reals c) {o : List Char} {us : List SMT.Term} {ts : List (T D)} {vs : List Val} {t : SMT.Term} {v : Val} {d : D}
    (hL : All2 (fun u t => Looks G reals t u) us ts) (hu : evalL ρ us = some vs)
    (h3 : o = cs!"ite" → vs.length = 3) (hne : vs ≠ [])
    (h : callOper (ctors (declared c G.vars G.funs) rest rlit) o [] us = .ok t) (he : eval ρ t = some v) (hd : d = .int ∨ d = .real)
    (ho : (o = cs!"ite" ∧ OfSortL G reals d 1 ts) ∨ (o = cs!"-" ∧ ts.length = 1 ∧ OfSortL G reals d 0 ts) ∨
      (o ∈ [cs!"+", cs!"-", cs!"*"] ∧ OfSortL G reals d 0 ts ∧ (d = .int → reals = false) ∧ (d = .real → AnyStrictly G d ts))) :
    t.sort = toSrt d ∨ t.sort = .ior := by
  have hlen : vs.length = us.length := by rw [((evalL_iff ρ us vs).1 hu).2]; simp
  have hl2 : us.length = ts.length := by
    clear h he hu hlen ho
    induction hL with
    | nil => rfl
    | cons _ _ ih => simp [ih]
  rcases ho with ⟨rfl, hs⟩ | ⟨rfl, h1, hs⟩ | ⟨ho, hs, hi, hr⟩
  · rw [h3 rfl] at hlen
    match us, hlen with
    | [a, x, y], _ =>
      have := sorts_mem hL hd 1 hs
      obtain ⟨w, hw⟩ := ((evalL_iff ρ [a, x, y] vs).1 hu).1 a (by simp)
      exact ite_sort (this x (by simp)) (this y (by simp)) hw h he
  · rw [h1] at hl2
    match us, hl2 with
    | [u], _ => exact neg_sort (sorts_mem hL hd 0 hs u (by simp)) h he
  · have hm := sorts_mem hL hd 0 hs
    rw [List.drop_zero] at hm
    match us, hlen with
    | [], e => exact absurd (List.length_eq_zero_iff.1 e) hne
    | p :: ps, _ =>
      refine fold_sort ho hm ?_ h he
      rcases hd with rfl | rfl
      · refine theory_int ?_ hm
        cases e : c.realTheory with
        | false => rfl
        | true => have := hc.real e; rw [hi rfl] at this; cases this
      · exact theory_real hm (strict_mem hL (hr rfl))

theorem notNumeral {t : SMT.Term} {g : Tag D} {ts : List (T D)} (h : ∀ s ph, g ≠ .sym s ph) : Numeral G (.mk g ts) → ∃ z, (t : SMT.Term) = .cint z := by
  rintro ⟨s, ph, e, _⟩
  cases e
  exact absurd rfl (h s ph)

/-- the tables have no operator in common -/
theorem tables_apart {o : List Char} {k : Kind} (h : (o, k) ∈ opTable) : ∀ k', (o, k') ∉ bvTable ++ (arTable ++ strTable) := by
  intro k' h'
  have key : ∀ a ∈ opTable, ∀ b ∈ bvTable ++ (arTable ++ strTable), a.1 ≠ b.1 := by decide
  exact key _ h _ h' rfl

theorem res_table {o : List Char} {d : D} (h : (o, d) ∈ resTable) : ∃ k, (o, k) ∈ arTable ++ strTable := by
  have key : ∀ a ∈ resTable, ∃ b ∈ arTable ++ strTable, a.1 = b.1 := by decide
  obtain ⟨⟨o', k⟩, hb, e⟩ := key _ h
  exact ⟨k, by rw [show o = o' from e]; exact hb⟩

theorem res_fold {o : List Char} {k : Kind} {d : D} (hk : (o, k) ∈ arTable) (h : (o, d) ∈ resTable) : o ∈ foldOps := by
  have key : ∀ a ∈ resTable, ∀ b ∈ arTable, a.1 = b.1 → a.1 ∈ foldOps := by decide
  exact key _ h _ hk rfl

/-- an operator of the core theory, of arithmetic or on bit-vectors is no function and has no value of another sort -/
theorem not_strictly (hG : SigOk G) {o : List Char} (ho : (∃ k, (o, k) ∈ opTable) ∨ ∃ k, (o, k) ∈ bvTable) {n : Nat} {ts : List (T D)} {d : D} :
    ¬ Strictly G d (.mk (.app o n) ts) := by
  intro h
  simp only [Strictly] at h
  rcases h with ⟨f, hf, rfl, _⟩ | h
  · rcases ho with ⟨k, h⟩ | ⟨k, h⟩
    · exact (hG.notOp f hf).1 k h
    · exact (hG.notOp f hf).2 k (List.mem_append_left _ h)
  · obtain ⟨k', h'⟩ := res_table h.1
    rcases ho with ⟨k, hk⟩ | ⟨k, hk⟩
    · exact tables_apart hk k' (List.mem_append_right _ h')
    · have key : ∀ a ∈ bvTable, ∀ b ∈ arTable ++ strTable, a.1 ≠ b.1 := by decide
      exact key _ hk _ h' rfl

theorem arApp_table {o : List Char} {vs : List Val} {v : Val} (h : ArApp o vs v ∨ ByZero ρ o vs v) : ∃ k, (o, k) ∈ arTable := by
  rcases h with h | ⟨k, σ, a, ho, _⟩
  · cases h with
    | div => exact ⟨.arith 0, by decide⟩
    | mod => exact ⟨.arith 1, by decide⟩
    | quot => exact ⟨.arith 2, by decide⟩
    | absPos => exact ⟨.arith 3, by decide⟩
    | absNeg => exact ⟨.arith 3, by decide⟩
    | toReal => exact ⟨.arith 4, by decide⟩
    | toInt => exact ⟨.arith 5, by decide⟩
    | isInt => exact ⟨.atom 8, by decide⟩
    | notInt => exact ⟨.atom 8, by decide⟩
  · simp only [divTable, List.mem_cons, Prod.mk.injEq, List.not_mem_nil, or_false] at ho
    rcases ho with ⟨rfl, _⟩ | ⟨rfl, _⟩ | ⟨rfl, _⟩
    · exact ⟨.arith 0, by decide⟩
    · exact ⟨.arith 1, by decide⟩
    · exact ⟨.arith 2, by decide⟩

theorem arApp_ne {o : List Char} {vs : List Val} {v : Val} (h : ArApp o vs v ∨ ByZero ρ o vs v) : vs ≠ [] := by
  rcases h with h | ⟨k, σ, a, _, rfl, _⟩
  · cases h <;> simp
  · simp

theorem bvApp_notNum {o : List Char} {n : Nat} {vs : List Val} {v : Val} (h : BvApp o n vs v) (q : Rat) : v ≠ .n q := by
  cases h <;> simp [bvVal]

theorem creal_num {t : SMT.Term} (h : t.isCReal = true) : ∃ q, eval ρ t = some (.n q) := by
  cases t with
  | cint i => exact ⟨i, by simp [eval]⟩
  | creal n q => exact ⟨q, by simp [eval]⟩
  | _ => simp [SMT.Term.isCReal] at h

theorem cstr_false {t : SMT.Term} {v : Val} (he : eval ρ t = some v) (h : ∀ x, v ≠ .u .str x) : t.isCStr = false := by
  cases e : t.isCStr with
  | false => rfl
  | true =>
    obtain ⟨x, rfl⟩ := isCStr_cases e
    simp only [eval] at he
    exact absurd (Option.some.inj (guardSort_some.1 he).1).symm (h x)

theorem bvApp_notStr {o : List Char} {n : Nat} {vs : List Val} {v : Val} (h : BvApp o n vs v) (x : String) : v ≠ .u .str x := by
  cases h <;> simp [bvVal]

theorem arApp_notStr {o : List Char} {vs : List Val} {v : Val} (h : ArApp o vs v ∨ ByZero ρ o vs v) (x : String) : v ≠ .u .str x := by
  rcases h with h | ⟨k, σ, a, ho, _, _, hv⟩
  · cases h <;> simp
  · rintro rfl
    simp only [divTable, List.mem_cons, Prod.mk.injEq, List.not_mem_nil, or_false] at ho
    rcases ho with ⟨_, _, rfl⟩ | ⟨_, _, rfl⟩ | ⟨_, _, rfl⟩ <;> simp [Val.hasSort, Srt.isNum] at hv

theorem strApp_table {o : List Char} {vs : List Val} {v : Val} (h : StrApp o vs v) : ∃ k, (o, k) ∈ strTable := by
  cases h with
  | len => exact ⟨.strOp 0, by decide⟩
  | cat => exact ⟨.strOp 1, by decide⟩
  | substr => exact ⟨.strOp 2, by decide⟩
  | prefixof => exact ⟨.strOp 3, by decide⟩
  | suffixof => exact ⟨.strOp 4, by decide⟩
  | indexof => exact ⟨.strOp 5, by decide⟩
  | «at» => exact ⟨.strOp 6, by decide⟩
  | replace => exact ⟨.strOp 7, by decide⟩
  | replaceAll => exact ⟨.strOp 8, by decide⟩
  | contains => exact ⟨.atom 9, by decide⟩
  | isDigit => exact ⟨.atom 10, by decide⟩
  | fromInt => exact ⟨.misc 10, by decide⟩
  | noNat => exact ⟨.misc 10, by decide⟩
  | toInt => exact ⟨.misc 11, by decide⟩
  | noInt => exact ⟨.misc 11, by decide⟩
  | toCode => exact ⟨.misc 12, by decide⟩
  | noCode => exact ⟨.misc 12, by decide⟩
  | fromCode => exact ⟨.misc 13, by decide⟩
  | noChar => exact ⟨.misc 13, by decide⟩

theorem quote_notDigits {s : List Char} (h : Tok.Digits (Str.quote s)) : False := absurd (h.2 '"' (by simp [Str.quote])) (by decide)

theorem quote_notLiteral {s : List Char} {q : Rat} (h : Literal (Str.quote s) q) : False := by
  have key : ∀ {l : List Char} {t : List Char}, '"' :: l = t → Literal t q → False := by
    intro l t e h
    cases h with
    | num hd => subst e; exact absurd (hd.2 '"' (by simp)) (by decide)
    | @dec ds es h1 h2 =>
      cases ds with
      | nil => exact absurd rfl h1.1
      | cons x ds =>
        simp only [List.cons_append, List.cons.injEq] at e
        exact absurd (h1.2 x (by simp)) (by rw [← e.1]; decide)
  exact key rfl h

theorem op_ne {k : Kind} {vs : List Val} {v : Val} (h : apply ρ k .bool vs = some v) (hk : k = .add ∨ k = .sub ∨ k = .mul ∨ k = .ite) :
    vs ≠ [] := by
  rintro rfl
  rcases hk with rfl | rfl | rfl | rfl <;> simp [apply, numsOf] at h

/-- an operator of the core theory or of arithmetic is no function and no operator on bit-vectors -/
theorem not_varies (hG : SigOk G) {o : List Char} {k : Kind} {n : Nat} {ts : List (T D)} (ho : (o, k) ∈ opTable) :
    ¬ Varies G (.mk (.app o n) ts) := by
  intro h
  simp only [Varies] at h
  rcases h with ⟨f, hf, rfl⟩ | ⟨⟨k', h⟩, _⟩
  · exact (hG.notOp f hf).1 k ho
  · exact tables_apart ho k' h

theorem bvApp_table {o : List Char} {n : Nat} {vs : List Val} {v : Val} (h : BvApp o n vs v) : ∃ k, (o, k) ∈ bvTable := by
  cases h with
  | left x y xs ho hw =>
    simp only [leftTable, List.mem_cons, Prod.mk.injEq, List.not_mem_nil, or_false] at ho
    rcases ho with ⟨rfl, _⟩ | ⟨rfl, _⟩ | ⟨rfl, _⟩ | ⟨rfl, _⟩ | ⟨rfl, _⟩
    · exact ⟨.bvOp 2, by decide⟩
    · exact ⟨.bvOp 3, by decide⟩
    · exact ⟨.bvOp 4, by decide⟩
    · exact ⟨.bvOp 8, by decide⟩
    · exact ⟨.bvOp 10, by decide⟩
  | bin x y ho hw =>
    simp only [binTable, List.mem_cons, Prod.mk.injEq, List.not_mem_nil, or_false] at ho
    rcases ho with ⟨rfl, _⟩ | ⟨rfl, _⟩ | ⟨rfl, _⟩ | ⟨rfl, _⟩ | ⟨rfl, _⟩ | ⟨rfl, _⟩ | ⟨rfl, _⟩ | ⟨rfl, _⟩ | ⟨rfl, _⟩ | ⟨rfl, _⟩ | ⟨rfl, _⟩ | ⟨rfl, _⟩
    · exact ⟨.bvOp 5, by decide⟩
    · exact ⟨.bvOp 6, by decide⟩
    · exact ⟨.bvOp 7, by decide⟩
    · exact ⟨.bvOp 9, by decide⟩
    · exact ⟨.bvOp 11, by decide⟩
    · exact ⟨.bvOp 12, by decide⟩
    · exact ⟨.bvOp 13, by decide⟩
    · exact ⟨.bvOp 14, by decide⟩
    · exact ⟨.bvOp 15, by decide⟩
    · exact ⟨.bvOp 16, by decide⟩
    · exact ⟨.bvOp 17, by decide⟩
    · exact ⟨.bvOp 18, by decide⟩
  | cmp x y ho hw =>
    simp only [cmpTable, List.mem_cons, Prod.mk.injEq, List.not_mem_nil, or_false] at ho
    rcases ho with ⟨rfl, _⟩ | ⟨rfl, _⟩ | ⟨rfl, _⟩ | ⟨rfl, _⟩ | ⟨rfl, _⟩ | ⟨rfl, _⟩ | ⟨rfl, _⟩ | ⟨rfl, _⟩
    · exact ⟨.atom 0, by decide⟩
    · exact ⟨.atom 1, by decide⟩
    · exact ⟨.atom 2, by decide⟩
    · exact ⟨.atom 3, by decide⟩
    · exact ⟨.atom 4, by decide⟩
    · exact ⟨.atom 5, by decide⟩
    · exact ⟨.atom 6, by decide⟩
    · exact ⟨.atom 7, by decide⟩
  | not => exact ⟨.bvOp 0, by decide⟩
  | neg => exact ⟨.bvOp 1, by decide⟩
  | comp => exact ⟨.bvOp 24, by decide⟩
  | concat => exact ⟨.bvOp 19, by decide⟩
  | extract => exact ⟨.bvOp 20, by decide⟩
  | rep => exact ⟨.bvOp 21, by decide⟩
  | rol => exact ⟨.bvOp 22, by decide⟩
  | ror => exact ⟨.bvOp 23, by decide⟩
  | zext => exact ⟨.bvOp 25, by decide⟩
  | sext => exact ⟨.bvOp 26, by decide⟩

theorem Covers.noConst {Δ : List (List Char × Val)} {sc : Names SMT.Term} {s : List Char} (h : Covers reals ρ G Δ sc) (hs : IsConst s) :
    (letsOf sc).lookup s = none := by
  cases e : (letsOf sc).lookup s with
  | none => rfl
  | some t => exact absurd hs (h.apart s t e).2

theorem lit_notDigits {s : List Char} (h : Tok.Digits ('#' :: s)) : False := absurd (h.2 '#' (by simp)) (by decide)

/-- a let does not bind a constant -/
theorem Covers.noConst' {Δ : List (List Char × Val)} {sc : Names SMT.Term} {s : List Char} (h : Covers reals ρ G Δ sc) (hs : IsConst s) :
    Δ.lookup s = none := by
  cases e : Δ.lookup s with
  | none => rfl
  | some v =>
    obtain ⟨t, e', _⟩ := h.known s v e
    rw [h.noConst hs] at e'
    cases e'

theorem quote_means {Δ : List (List Char × Val)} {s : List Char} {ph : Bool} {v : Val} (hΔ : Δ.lookup (Str.quote s) = none)
    (hG : G.vars.lookup (Str.quote s) = none) (h : Means ρ G Δ (.mk (.sym (Str.quote s) ph) []) v) : v = strVal s := by
  generalize hq : Str.quote s = q at h hΔ hG
  cases h with
  | tru => simp [Str.quote] at hq
  | fls => simp [Str.quote] at hq
  | bound _ _ h => rw [hΔ] at h; cases h
  | var _ _ _ h => rw [hG] at h; cases h
  | lit _ _ h => subst hq; exact (quote_notLiteral h).elim
  | bin => simp [Str.quote, BV.lit] at hq
  | hex => simp [Str.quote] at hq
  | str =>
    simp only [Str.quote, List.cons.injEq, true_and, List.append_cancel_right_eq] at hq
    rw [hq]

theorem numeral_means {Δ : List (List Char × Val)} {s : List Char} {ph : Bool} {v : Val} (hs : Tok.Digits s) (hΔ : Δ.lookup s = none)
    (hG : G.vars.lookup s = none) (h : Means ρ G Δ (.mk (.sym s ph) []) v) : v = .n ((undec s : Nat) : Rat) := by
  generalize hq : s = q at h
  cases h with
  | tru => subst hq; exact absurd (hs.2 't' (by simp)) (by decide)
  | fls => subst hq; exact absurd (hs.2 'f' (by simp)) (by decide)
  | bound _ _ h => subst hq; rw [hΔ] at h; cases h
  | var _ _ _ h => subst hq; rw [hG] at h; cases h
  | lit _ _ h =>
    cases h with
    | num => rfl
    | dec => subst hq; exact absurd (hs.2 '.' (by simp)) (by decide)
  | bin => subst hq; exact (lit_notDigits hs).elim
  | hex => subst hq; exact (lit_notDigits hs).elim
  | str => subst hq; exact (quote_notDigits hs).elim

/-- the values of terms of literals -/
theorem rightLit_val {Δ : List (List Char × Val)} {sc : Names SMT.Term} {t : T D} (hG : SigOk G) (hco : Covers reals ρ G Δ sc) (h : RightLit G t) :
    ∀ v, Means ρ G Δ t v → RightVal v := by
  induction h with
  | str hp hv => exact fun v m => .inl ⟨_, quote_means (hco.noConst' (.str _)) hv m, hp⟩
  | num hs hv hb => exact fun v m => .inr ⟨_, numeral_means hs (hco.noConst' (.num (.num hs))) hv m, hb⟩
  | @app o ts ho h ih =>
    intro v m
    have hall : ∀ (ts : List (T D)) (vs : List Val), MeansL ρ G Δ ts vs → (∀ t ∈ ts, ∀ v, Means ρ G Δ t v → RightVal v) → ∀ x ∈ vs, RightVal x := by
      intro ts
      induction ts with
      | nil => intro vs hm _; cases hm; simp
      | cons t ts ih' =>
        intro vs hm h2 x hx
        cases hm with
        | cons m ms =>
          rcases List.mem_cons.1 hx with rfl | hx
          · exact h2 t (by simp) _ m
          · exact ih' _ ms (fun t h => h2 t (by simp [h])) x hx
    have k1 : ∀ o ∈ strRight, (∀ a ∈ opTable, a.1 ≠ o) ∧ (∀ a ∈ bvTable ++ arTable, a.1 ≠ o) ∧ (∃ a ∈ strTable, a.1 = o) ∧ o ≠ cs!"-" := by decide
    obtain ⟨k1, k2, ⟨⟨o', k⟩, k3, e⟩, k4⟩ := k1 o ho
    dsimp only at e
    subst e
    cases m with
    | op h1 _ _ => exact absurd rfl (k1 _ h1)
    | bv _ _ h1 =>
      obtain ⟨k, hk⟩ := bvApp_table h1
      exact absurd rfl (k2 _ (List.mem_append_left _ hk))
    | ar _ _ h1 =>
      obtain ⟨k, hk⟩ := arApp_table h1
      exact absurd rfl (k2 _ (List.mem_append_right _ hk))
    | neg => exact absurd rfl k4
    | fn h1 => exact absurd (List.mem_append_right _ (List.mem_append_right _ k3)) ((hG.notOp _ (List.mem_of_getElem? h1)).2 k)
    | st _ h2 h3 =>
      have hv := hall _ _ h2 ih
      cases h3 with
      | cat s t ss =>
        refine .inl ⟨_, rfl, fun c hc => ?_⟩
        obtain ⟨s', h1, h2⟩ := List.mem_flatten.1 hc
        exact (hv _ (List.mem_map_of_mem h1)).plain c h2
      | «at» s i =>
        refine .inl ⟨_, rfl, fun c hc => (hv (strVal s) (by simp)).plain c ?_⟩
        unfold Str.atSpec at hc
        split at hc
        · exact List.mem_of_getElem? (Option.mem_toList.1 hc)
        · cases hc
      | substr s i n =>
        refine .inl ⟨_, rfl, fun c hc => (hv (strVal s) (by simp)).plain c ?_⟩
        unfold Str.substrSpec at hc
        split at hc
        · exact List.mem_of_mem_drop (List.mem_of_mem_take hc)
        · cases hc
      | replace s t u r h =>
        have hs := (hv (strVal s) (by simp)).plain
        have hu := (hv (strVal u) (by simp)).plain
        refine .inl ⟨_, rfl, ?_⟩
        rcases h with ⟨rfl, _⟩ | ⟨a, b, rfl, rfl, _⟩
        · exact hs
        · intro c hc
          simp only [List.mem_append] at hc hs
          rcases hc with (hc | hc) | hc
          · exact hs c (.inl (.inl hc))
          · exact hu c hc
          · exact hs c (.inr hc)
      | replaceAll s t u r h =>
        exact .inl ⟨_, rfl, Str.replaceAll_plain (hv (strVal u) (by simp)).plain h (hv (strVal s) (by simp)).plain⟩
      | _ => exact absurd ho (by decide)

/-- the values of operands on which the operator is computed rightly -/
theorem foldsRight_val {Δ : List (List Char × Val)} {sc : Names SMT.Term} {o : List Char} {ts : List (T D)} {vs : List Val} (hG : SigOk G)
    (hco : Covers reals ρ G Δ sc) (hm : MeansL ρ G Δ ts vs) (h : FoldsRight G o ts) : FoldsVal o vs := by
  obtain ⟨h1, h2, h3, h4⟩ := h
  have key : ∀ (ts : List (T D)) (vs : List Val), MeansL ρ G Δ ts vs → (∀ t ∈ ts, RightLit G t) → ∀ x ∈ vs, RightVal x := by
    intro ts
    induction ts with
    | nil => intro vs hm _; cases hm; simp
    | cons t ts ih =>
      intro vs hm h2 x hx
      cases hm with
      | cons m ms =>
        rcases List.mem_cons.1 hx with rfl | hx
        · exact rightLit_val hG hco (h2 t (by simp)) _ m
        · exact ih _ ms (fun t h => h2 t (by simp [h])) x hx
  have lit : ∀ {s : List Char} {ph : Bool} {v : Val}, RightLit G (.mk (.sym (Str.quote s) ph) []) → Means ρ G Δ (.mk (.sym (Str.quote s) ph) []) v → v = strVal s := by
    intro s ph v h m
    generalize hq : Str.quote s = q at h
    cases h with
    | str _ hv => exact quote_means (hco.noConst' (.str _)) (hq ▸ hv) m
    | num hs => subst hq; exact (quote_notDigits hs).elim
  refine ⟨h1, key ts vs hm h2, ?_, ?_⟩
  · rintro e s i rfl
    obtain ⟨s', p, ds, q, rfl, hd, hb⟩ := h3 e
    cases hm with
    | cons m ms =>
      cases ms with
      | cons m' ms' =>
        have e1 := strVal_inj (lit (h2 _ (by simp)) m)
        have hv : G.vars.lookup ds = none := by
          have := h2 (.mk (.sym ds q) []) (by simp)
          generalize hq : ds = d at this
          cases this with
          | str _ hv => exact (quote_notDigits (hq ▸ hd)).elim
          | num _ hv => exact hv
        have e2 : i = ((undec ds : Nat) : Int) := num_inj (by rw [numeral_means hd (hco.noConst' (.num (.num hd))) hv m']; rfl)
        rw [e1, e2]
        exact Int.ofNat_le.2 hb
  · rintro e s u rfl
    obtain ⟨a, s', p, b, rfl, hne⟩ := h4 e
    cases hm with
    | cons m ms =>
      cases ms with
      | cons m' ms' => exact hne (strVal_inj (lit (h2 _ (by simp)) m')).symm

theorem lit_notLiteral {s : List Char} {q : Rat} (h : Literal ('#' :: s) q) : False := by
  generalize e : '#' :: s = t at h
  cases h with
  | num h => subst e; exact lit_notDigits h
  | @dec ds es h1 h2 =>
    cases ds with
    | nil => exact absurd rfl h1.1
    | cons x ds =>
      simp only [List.cons_append, List.cons.injEq] at e
      exact absurd (h1.2 x (by simp)) (by rw [← e.1]; decide)

theorem not_right {G : Sig} {o : List Char} {ts : List (T D)} (h : o ∈ wrongFold ++ foldOps) : ¬ FoldsRight G o ts := by
  have key : ∀ o ∈ wrongFold ++ foldOps, o ∉ strRight := by decide
  exact fun h' => key o h h'.1

theorem not_rightAr {G : Sig} {o : List Char} {ts : List (T D)} (h : o ∈ wrongFold ++ strFolds) : ¬ FoldsRightAr G reals o ts := by
  have key : ∀ o ∈ wrongFold ++ strFolds, o ∉ arRight ∧ o ≠ cs!"/" := by decide
  rintro (h' | h')
  · exact (key o h).1 h'.1
  · exact (key o h).2 h'.1

theorem not_rightBv {G : Sig} {o : List Char} {ts : List (T D)} (h : o ∈ foldOps ++ strFolds) : ¬ FoldsRightBv G o ts := by
  have key : ∀ o ∈ foldOps ++ strFolds, o ∉ wrongFold := by decide
  rintro ⟨w, x, y, a, b, _, _, _, h'⟩
  exact key o h (right_name h').1

/-- a bit-vector constant has one value -/
theorem bvLit_means {Δ : List (List Char × Val)} {sc : Names SMT.Term} {t : T D} {w : Nat} {x : BitVec w} {v : Val} (hco : Covers reals ρ G Δ sc)
    (h : BvLit G t x) (m : Means ρ G Δ t v) : v = bvVal x := by
  cases h with
  | @bin _ ph x hg =>
    have hΔ := hco.noConst' (.bin x)
    generalize hq : BV.lit x = q at m
    cases m with
    | tru => simp [BV.lit] at hq
    | fls => simp [BV.lit] at hq
    | bound _ _ h => subst hq; rw [hΔ] at h; cases h
    | var _ _ _ h => subst hq; rw [hg] at h; cases h
    | lit _ _ h => subst hq; exact (lit_notLiteral h).elim
    | @bin _ v _ y =>
      have hw : w = v := by
        have := congrArg List.length hq
        simpa using this
      subst hw
      rw [BV.lit_inj.1 hq]
    | hex => simp [BV.lit] at hq
    | str => simp [BV.lit, Str.quote] at hq
  | @hex ds ph hg =>
    have hΔ := hco.noConst' (.hex (ds := ds))
    generalize hq : '#' :: 'x' :: ds = q at m
    cases m with
    | tru => simp at hq
    | fls => simp at hq
    | bound _ _ h => subst hq; rw [hΔ] at h; cases h
    | var _ _ _ h => subst hq; rw [hg] at h; cases h
    | lit _ _ h => subst hq; exact (lit_notLiteral h).elim
    | bin => simp [BV.lit] at hq
    | hex => simp only [List.cons.injEq, true_and] at hq; subst hq; rfl
    | str => simp [Str.quote] at hq

theorem foldsBv_val {Δ : List (List Char × Val)} {sc : Names SMT.Term} {o : List Char} {ts : List (T D)} {vs : List Val} (hco : Covers reals ρ G Δ sc)
    (hm : MeansL ρ G Δ ts vs) (h : FoldsRightBv G o ts) : FoldsBv o vs := by
  obtain ⟨w, x, y, a, b, rfl, ha, hb, h⟩ := h
  cases hm with
  | cons m ms =>
    cases ms with
    | cons m' ms' =>
      cases ms'
      exact ⟨w, x, y, by rw [bvLit_means hco ha m, bvLit_means hco hb m'], h⟩

theorem literal_unique {s : List Char} {p q : Rat} (h1 : Literal s p) (h2 : Literal s q) : p = q := by
  obtain ⟨_, _, _, _, ⟨_, z, a1, rfl, a3⟩ | ⟨_, a2, a3⟩⟩ := literal_const h1
  · obtain ⟨_, _, _, _, ⟨_, z', b1, rfl, b3⟩ | ⟨_, b2, b3⟩⟩ := literal_const h2
    · rw [a1] at b1; cases b1; rfl
    · exact absurd b3 a3
  · obtain ⟨_, _, _, _, ⟨_, z', b1, rfl, b3⟩ | ⟨_, b2, b3⟩⟩ := literal_const h2
    · exact absurd a3 b3
    · rw [← a2, b2]

/-- a literal has one value -/
theorem literal_means {Δ : List (List Char × Val)} {s : List Char} {ph : Bool} {v : Val} {q : Rat} (hs : Literal s q) (hΔ : Δ.lookup s = none)
    (hG : G.vars.lookup s = none) (h : Means ρ G Δ (.mk (.sym s ph) []) v) : v = .n q := by
  generalize hq : s = x at h
  cases h with
  | tru => exact absurd hq (literal_const hs).2.2.1
  | fls => exact absurd hq (literal_const hs).2.2.2.1
  | bound _ _ h => subst hq; rw [hΔ] at h; cases h
  | var _ _ _ h => subst hq; rw [hG] at h; cases h
  | lit _ _ h => subst hq; rw [literal_unique hs h]
  | bin => subst hq; exact (lit_notLiteral hs).elim
  | hex => subst hq; exact (lit_notLiteral hs).elim
  | str => subst hq; exact (quote_notLiteral hs).elim

theorem ratLit_means {Δ : List (List Char × Val)} {sc : Names SMT.Term} {t : T D} {q : Rat} (hG : SigOk G) (hco : Covers reals ρ G Δ sc) (h : RatLit G t q) :
    ∀ v, Means ρ G Δ t v → v = .n q := by
  induction h with
  | lit hs hg => exact fun v m => literal_means hs (hco.noConst' (.num hs)) hg m
  | @neg t q _ ih =>
    intro v m
    have no : ∀ k, (cs!"-", k) ∉ bvTable ++ (arTable ++ strTable) := fun k hk => by
      have key : ∀ a ∈ bvTable ++ (arTable ++ strTable), a.1 ≠ cs!"-" := by decide
      exact key _ hk rfl
    cases m with
    | op h1 h2 h3 =>
      have key : ∀ a ∈ opTable, a.1 = cs!"-" → a.2 = .sub := by decide
      have e := key _ h1 rfl
      dsimp only at e
      subst e
      cases h2 with
      | cons m ms => cases ms; rw [ih _ m] at h3; simp [apply, numsOf] at h3
    | bv _ _ h1 =>
      obtain ⟨k, hk⟩ := bvApp_table h1
      exact absurd (List.mem_append_left _ hk) (no k)
    | ar _ _ h1 =>
      obtain ⟨k, hk⟩ := arApp_table h1
      exact absurd (List.mem_append_right _ (List.mem_append_left _ hk)) (no k)
    | st _ _ h1 =>
      obtain ⟨k, hk⟩ := strApp_table h1
      exact absurd (List.mem_append_right _ (List.mem_append_right _ hk)) (no k)
    | fn h1 => exact absurd (show (cs!"-", Kind.sub) ∈ opTable by decide) ((hG.notOp _ (List.mem_of_getElem? h1)).1 .sub)
    | neg m => rw [Val.n.inj (ih _ m)]

/-- the values and nodes of the constants on which the operator is computed rightly -/
theorem foldsAr_num {Δ : List (List Char × Val)} {sc : Names SMT.Term} {o : List Char} {ts : List (T D)} {us : List SMT.Term} {vs : List Val}
    (hG : SigOk G) (hco : Covers reals ρ G Δ sc) (hm : MeansL ρ G Δ ts vs) (hl : All2 (fun u t => Looks G reals t u) us ts) (h : FoldsRightAr G reals o ts) :
    FoldsNum reals o us vs := by
  rcases h with ⟨h1, h2, h3, h4⟩ | ⟨h1, h2, a, x, b, y, rfl, ha, hb, hxy⟩
  · refine .inl ⟨h1, ?_, ?_, h3, ?_⟩
    · clear hm h4
      induction hl with
      | nil => simp
      | @cons u t us ts hu hl ih =>
        intro w hw
        rcases List.mem_cons.1 hw with rfl | hw
        · exact hu.numeral (h2 _ (by simp))
        · exact ih (fun t h => h2 t (by simp [h])) w hw
    · clear hl h4
      induction ts generalizing vs with
      | nil => cases hm; simp
      | cons t ts ih =>
        intro w hw
        cases hm with
        | cons m ms =>
          rcases List.mem_cons.1 hw with rfl | hw
          · obtain ⟨s, ph, rfl, hd, hg⟩ := h2 t (by simp)
            exact ⟨_, numeral_means hd (hco.noConst' (.num (.num hd))) hg m⟩
          · exact ih ms (fun t h => h2 t (by simp [h])) w hw
    · rintro ho a rfl
      cases hm with
      | cons m ms =>
        cases ms with
        | cons m' ms' =>
          rename_i t' ts'
          obtain ⟨s, ph, rfl, hd, hg⟩ := h2 t' (by simp)
          have e := Val.n.inj (numeral_means hd (hco.noConst' (.num (.num hd))) hg m')
          exact h4 ho s ph (by simp) (by exact_mod_cast e.symm)
  · refine .inr ⟨h1, h2, ?_⟩
    rintro p q rfl
    cases hm with
    | cons m ms =>
      cases ms with
      | cons m' ms' =>
        rw [Val.n.inj (ratLit_means hG hco ha _ m), Val.n.inj (ratLit_means hG hco hb _ m')]
        exact hxy

theorem digits_ne {s : List Char} (h : Tok.Digits s) : IsConst s := .num (.num h)

theorem nodup_fst : ∀ {l : List (List Char × List D × D)}, (l.map fun f => f.1).Nodup → ∀ {a b}, a ∈ l → b ∈ l → a.1 = b.1 → a = b
  | [], _, _, _, h, _, _ => by simp at h
  | x :: l, hn, a, b, ha, hb, e => by
    simp only [List.map_cons, List.nodup_cons, List.mem_map, not_exists, not_and] at hn
    rcases List.mem_cons.1 ha with ha | ha
    · rcases List.mem_cons.1 hb with hb | hb
      · rw [ha, hb]
      · exact absurd (by rw [← e, ha]) (hn.1 b hb)
    · rcases List.mem_cons.1 hb with hb | hb
      · exact absurd (by rw [e, hb]) (hn.1 a ha)
      · exact nodup_fst hn.2 ha hb e

theorem good_means (hc : Arith arith reals c) (hG : SigOk G) {Δ : List (List Char × Val)} {e : T D} {v : Val} (h : Means ρ G Δ e v) :
    Good arith reals ρ G c rest rlit Δ e v := by
  refine Means.rec (motive_1 := fun Δ e v _ => Good arith reals ρ G c rest rlit Δ e v)
    (motive_2 := fun Δ ts vs _ => All2 (fun t v => Good arith reals ρ G c rest rlit Δ t v) ts vs)
    ?_ ?_ ?_ ?_ ?_ ?_ ?_ ?_ ?_ ?_ ?_ ?_ ?_ ?_ ?_ ?_ ?_ ?_ ?_ h
  · intro Δ ph sc hco hf hn hb
    exact ⟨.tt, rfl, by simp [eval], by simp [Std, leafOk], fun h => absurd rfl h.1, fun ⟨s, ph, e, hd, _⟩ => by cases e; exact absurd (hd.2 't' (by simp)) (by decide),
      fun d _ h => h.elim (fun h => absurd rfl h.1) fun h => absurd (h.1.2 't' (by simp)) (by decide), fun d h => absurd rfl h.1⟩
  · intro Δ ph sc hco hf hn hb
    exact ⟨.ff, rfl, by simp [eval], by simp [Std, leafOk], fun h => absurd rfl h.2.1, fun ⟨s, ph, e, hd, _⟩ => by cases e; exact absurd (hd.2 'f' (by simp)) (by decide),
      fun d _ h => h.elim (fun h => absurd rfl h.2.1) fun h => absurd (h.1.2 'f' (by simp)) (by decide), fun d h => absurd rfl h.2.1⟩
  · intro Δ s ph v h1 h2 h3 sc hco hf hn hb
    obtain ⟨t, a1, a2, a3⟩ := hco.known s v h3
    obtain ⟨p1, p2⟩ := hco.apart s t a1
    have hs : ∀ d, ¬ Strictly G d (.mk (.sym s ph) []) := fun d h => by
      rcases h.2.2 with h | ⟨_, _, _, q, h⟩
      · rw [p1] at h; cases h
      · exact p2 (.num h)
    exact ⟨t, leaf_bound ph h1 h2 a1, a2, a3, fun h => absurd p1 h.2.2, fun ⟨s', ph', e, hd, _⟩ => by cases e; exact absurd (digits_ne hd) p2,
      fun d _ h => h.elim (fun h => absurd h (hs d)) fun h => absurd (digits_ne h.1) p2, fun d h => absurd h (hs d)⟩
  · intro Δ s ph d σ v h1 h2 h3 h4 h5 h6 h7 sc hco hf hn hb
    have hl : (letsOf sc).lookup s = none := by
      cases e : (letsOf sc).lookup s with
      | none => rfl
      | some t => have := (hco.apart s t e).1; rw [h4] at this; cases this
    refine ⟨_, leaf_var hG ph h1 h2 hl hco.noQuants h4, ?_, ?_, fun _ => ⟨rfl, rfl, rfl⟩, fun ⟨s', ph', e, _, hd⟩ => (by cases e; rw [h4] at hd; cases hd),
      fun d' _ h => ?_, fun d' h => ?_⟩
    · rw [sortIs_toSrt h5]
      simp only [eval, h6]
      exact guardSort_some.2 ⟨rfl, h7⟩
    · rw [sortIs_toSrt h5]; cases h5 <;> simp [Std, leafOk]
    · rcases h with h | h
      · rcases h.2.2 with h | h
        · rw [h4] at h; cases h; exact .inl rfl
        · rw [h4] at h; cases h.1
      · rw [h4] at h; cases h.2
    · rcases h.2.2 with h | h
      · rw [h4] at h; cases h; rfl
      · rw [h4] at h; cases h.1
  · intro Δ s ph q h1 h2 h3 sc hco hf hn hb
    obtain ⟨t, a1, a2, a3, a4⟩ := leaf_lit (c := c) (rest := rest) (rlit := rlit) (ρ := ρ) hG ph h3 hf.2.1 (hco.noConst (.num h3)) hco.noQuants h2
    have hs : ∀ d, Strictly G d (.mk (.sym s ph) []) → t.sort = toSrt d := fun d h => by
      rcases h.2.2 with h | ⟨_, rfl, h, _⟩
      · rw [h2] at h; cases h
      · exact a4.2.2 h
    exact ⟨t, a1, a2, a3, fun h => absurd h2 h.2.2, fun ⟨s', ph', e, hd, _⟩ => by cases e; exact a4.1 hd,
      fun d _ h => h.elim (fun h => .inl (hs d h)) fun h => by obtain ⟨z, rfl⟩ := a4.1 h.1; exact .inr rfl, hs⟩
  · intro Δ o k ts vs v h1 h2 h3 ih sc hco hf hn hb
    obtain ⟨us, b1, b2, b3, b4, b5⟩ := good_list ih hco hf.2.2 hn hb
    obtain ⟨t, c1, c2, c3⟩ := call_op (rest := rest) (rlit := rlit) hc hG h1 (us := us) (v := v) (by rw [b4]; exact hf.1.1) hf.1.2.1 b3
      (by unfold evalApp; rw [b2]; exact h3)
    have hs : ∀ d, ¬ Strictly G d (.mk (.app o 0) ts) := fun d => not_strictly hG (.inl ⟨k, h1⟩)
    refine ⟨t, ?_, c2, c3, fun h => absurd h (not_varies hG h1), notNumeral (by simp), fun d hd h => ?_, fun d h => absurd h (hs d)⟩
    · simp only [T.map, Tag.map, build, b1, Res.ok_bind, List.take_zero, List.drop_zero]
      exact c1
    · have key : ∀ a ∈ opTable, (a.1 = cs!"ite" → a.2 = .ite) ∧ (a.1 ∈ [cs!"+", cs!"-", cs!"*"] → a.2 = .add ∨ a.2 = .sub ∨ a.2 = .mul ∨ a.2 = .ite) := by
        decide
      obtain ⟨k1, k2⟩ := key _ h1
      dsimp only at k1 k2
      rcases h with h | h | h | h | h | h
      · exact absurd h (hs d)
      · obtain ⟨k', h'⟩ := res_table h
        exact absurd (List.mem_append_right _ h') (tables_apart h1 _)
      · refine op_sort (rest := rest) (rlit := rlit) hc b5 b2 (fun e => ?_) (op_ne h3 (by rw [k1 h.1]; simp)) c1 c2 hd (.inl h)
        rw [k1 e] at h3
        simp only [apply] at h3
        split at h3
        · rfl
        · cases h3
      · exact absurd (h.1 ▸ (by decide : (cs!"abs", Kind.arith 3) ∈ bvTable ++ (arTable ++ strTable))) (tables_apart h1 _)
      · refine op_sort (rest := rest) (rlit := rlit) hc b5 b2 (fun e => ?_) (op_ne h3 (k2 (by rw [h.1]; decide))) c1 c2 hd (.inr (.inl h))
        rw [h.1] at e; exact absurd e (by decide)
      · refine op_sort (rest := rest) (rlit := rlit) hc b5 b2 (fun e => ?_) (op_ne h3 (k2 h.1)) c1 c2 hd (.inr (.inr h))
        rw [e] at h; exact absurd h.1 (by decide)
  · intro Δ w ph x hw h1 h2 h3 sc hco hf hn hb
    have hs : ∀ d, ¬ Strictly G d (.mk (.sym (BV.lit x) ph) []) := fun d h => by
      rcases h.2.2 with h | ⟨_, _, _, q, h⟩
      · rw [h2] at h; cases h
      · exact lit_notLiteral h
    exact ⟨_, leaf_bin hG x ph hw (hco.noConst (.bin x)) hco.noQuants h2 h3, eval_ofConst x, std_ofConst _ _, fun h => absurd h2 h.2.2,
      fun ⟨s', ph', e, hd, _⟩ => by cases e; exact (lit_notDigits hd).elim,
      fun d _ h => h.elim (fun h => absurd h (hs d)) fun h => (lit_notDigits h.1).elim, fun d h => absurd h (hs d)⟩
  · intro Δ ds ph hne hd hw h1 h2 h3 sc hco hf hn hb
    have hs : ∀ d, ¬ Strictly G d (.mk (.sym ('#' :: 'x' :: ds) ph) []) := fun d h => by
      rcases h.2.2 with h | ⟨_, _, _, q, h⟩
      · rw [h2] at h; cases h
      · exact lit_notLiteral h
    exact ⟨_, leaf_hex hG ph hne hd (hco.noConst .hex) hco.noQuants h2 h3, eval_ofConst _, std_ofConst _ _, fun h => absurd h2 h.2.2,
      fun ⟨s', ph', e, hd, _⟩ => by cases e; exact (lit_notDigits hd).elim,
      fun d _ h => h.elim (fun h => absurd h (hs d)) fun h => (lit_notDigits h.1).elim, fun d h => absurd h (hs d)⟩
  · intro Δ w ds hw hd sc hco hf hn hb
    refine ⟨ofConst (BV.con (BitVec.ofNat w (undec ds))), ?_, eval_ofConst _, std_ofConst _ _, fun h => by simp [Varies] at h, notNumeral (by simp),
      fun d _ h => by simp [OfSort] at h, fun d h => by simp [Strictly] at h⟩
    simp only [T.map, Tag.map, build]
    show ((BV.mkConstBv ds w).bind fun k => Res.ok (ofConst k)) = _
    rw [mkConstBv_dec hd (wd_lt hw)]
    rfl
  · intro Δ o n ts vs v hI h2 h3 ih sc hco hf hn hb
    obtain ⟨us, b1, b2, b3, b4, b5⟩ := good_list ih hco hf.2.2 hn hb
    obtain ⟨t, c1, c2, c3, c4⟩ := call_bv (c := c) (rest := rest) (rlit := rlit) hG hI h3 b2 b3 (indices_mem b5 n hf.1.2.2.2.1)
      (fun h => by
        rcases hf.1.2.2.1 (List.mem_append_left _ h) with h' | h' | h' | h'
        · obtain ⟨u, hu, h, _⟩ := varies_mem b5 0 h'
          exact .inl ⟨u, by simpa using hu, h⟩
        · exact absurd h' (not_right (List.mem_append_left _ h))
        · exact absurd h' (not_rightAr (List.mem_append_left _ h))
        · exact .inr (foldsBv_val hco h2 h')) hf.1.2.2.2.2
    obtain ⟨k, hk⟩ := bvApp_table h3
    have hk' : (o, k) ∈ bvTable ++ (arTable ++ strTable) := List.mem_append_left _ hk
    have hs : ∀ d, ¬ Strictly G d (.mk (.app o n) ts) := fun d => not_strictly hG (.inr ⟨k, hk⟩)
    have key : ∀ a ∈ bvTable, a.1 ∉ [cs!"ite", cs!"abs", cs!"-", cs!"+", cs!"*"] := by decide
    have k1 := key _ hk
    dsimp only at k1
    refine ⟨t, ?_, c2, c3, ?_, notNumeral (by simp), fun d hd h => ?_, fun d h => absurd h (hs d)⟩
    · simp only [T.map, Tag.map, build, b1, Res.ok_bind]
      exact c1
    · intro h
      simp only [Varies] at h
      rcases h with ⟨f, hf', rfl⟩ | ⟨_, h⟩
      · exact absurd hk' ((hG.notOp f hf').2 k)
      · obtain ⟨u, hu, h, _⟩ := varies_mem b5 n h
        refine ⟨c4 ⟨u, hu, h⟩, ?_, ?_⟩
        · cases e : t.isCReal with
          | false => rfl
          | true =>
            obtain ⟨q, hq⟩ := creal_num (ρ := ρ) e
            rw [c2] at hq
            exact absurd (Option.some.inj hq) (bvApp_notNum h3 q)
        · exact cstr_false c2 (bvApp_notStr h3)
    · rcases h with h | h | h | h | h | h
      · exact absurd h (hs d)
      · obtain ⟨k', h'⟩ := res_table h
        have key : ∀ a ∈ bvTable, ∀ b ∈ arTable ++ strTable, a.1 ≠ b.1 := by decide
        exact (key (o, k) hk (o, k') h' rfl).elim
      · exact absurd (by rw [h.1]; decide) k1
      · exact absurd (by rw [h.1]; decide) k1
      · exact absurd (by rw [h.1]; decide) k1
      · have h := h.1
        simp only [List.mem_cons, List.not_mem_nil, or_false] at h
        exact absurd (by rcases h with rfl | rfl | rfl <;> decide) k1
  · intro Δ o ts vs v hI h2 h3 ih sc hco hf hn hb
    obtain ⟨us, b1, b2, b3, b4, b5⟩ := good_list ih hco hf.2.2 hn hb
    obtain ⟨t, c1, c2, c3, c4, c5, c5', c6⟩ := call_ar (r := reals) (c := c) (rest := rest) (rlit := rlit) hG hc.num hI h3 b2 b3
      (fun h => by
        rcases hf.1.2.2.1 (List.mem_append_right _ (List.mem_append_left _ h)) with h' | h' | h' | h'
        · obtain ⟨u, hu, _, h, _⟩ := varies_mem b5 0 h'
          exact .inl ⟨u, by simpa using hu, h⟩
        · exact absurd h' (not_right (List.mem_append_right _ h))
        · exact .inr (foldsAr_num hG hco h2 b5 h')
        · exact absurd h' (not_rightBv (List.mem_append_left _ h)))
      (fun h => by simpa [toSrt] using sorts_mem b5 (.inl rfl) 0 (hf.2.1.1 h)) (fun h => by simpa [toSrt] using sorts_mem b5 (.inr rfl) 0 (hf.2.1.2.1 h))
    obtain ⟨k, hk⟩ := arApp_table h3
    have hk' : (o, k) ∈ bvTable ++ (arTable ++ strTable) := List.mem_append_right _ (List.mem_append_left _ hk)
    have hs : ∀ d, Strictly G d (.mk (.app o 0) ts) → t.sort = toSrt d := by
      rintro d (⟨f, hf', rfl, _⟩ | h)
      · exact absurd hk' ((hG.notOp f hf').2 k)
      · obtain ⟨u, hu, _, h', _⟩ := varies_mem b5 0 (h.2 (res_fold hk h.1))
        exact c5' ⟨u, by simpa using hu, h'⟩ d h.1
    have key : ∀ a ∈ arTable, a.1 ∉ [cs!"ite", cs!"-", cs!"+", cs!"*"] := by decide
    have k1 := key _ hk
    dsimp only at k1
    refine ⟨t, ?_, c2, c3, ?_, notNumeral (by simp), fun d hd h => ?_, hs⟩
    · simp only [T.map, Tag.map, build, b1, Res.ok_bind, List.take_zero, List.drop_zero]
      exact c1
    · intro h
      simp only [Varies] at h
      rcases h with ⟨f, hf', rfl⟩ | ⟨_, h⟩
      · exact absurd hk' ((hG.notOp f hf').2 k)
      · obtain ⟨u, hu, h⟩ := varies_mem b5 0 h
        obtain ⟨g1, g2⟩ := c4 ⟨u, by simpa using hu, h.1, h.2.1⟩
        exact ⟨g1, g2, cstr_false c2 (arApp_notStr h3)⟩
    · rcases h with h | h | h | h | h | h
      · exact .inl (hs d h)
      · exact c5 d h
      · exact absurd (by rw [h.1]; decide) k1
      · have hlen : vs.length = us.length := by rw [((evalL_iff ρ us vs).1 b2).2]; simp
        match us, hlen with
        | [], e => exact absurd (List.length_eq_zero_iff.1 e) (arApp_ne h3)
        | u :: us', _ =>
          rw [c6 h.1 u (by simp)]
          exact sorts_mem b5 hd 0 h.2 u (by simp)
      · exact absurd (by rw [h.1]; decide) k1
      · have h := h.1
        simp only [List.mem_cons, List.not_mem_nil, or_false] at h
        exact absurd (by rcases h with rfl | rfl | rfl <;> decide) k1
  · intro Δ s ph hp h1 h2 h3 sc hco hf hn hb
    have hs : ∀ d, ¬ Strictly G d (.mk (.sym (Str.quote s) ph) []) := fun d h => by
      rcases h.2.2 with h | ⟨_, _, _, q, h⟩
      · rw [h2] at h; cases h
      · exact quote_notLiteral h
    exact ⟨_, leaf_string hG ph hp (hco.noConst (.str s)) hco.noQuants h2 h3,
      by simp only [eval, strVal]; exact guardSort_some.2 ⟨rfl, rfl⟩, by simp [Std, leafOk], fun h => absurd h2 h.2.2,
      fun ⟨s', ph', e, hd, _⟩ => by
        simp only [T.mk.injEq, Tag.sym.injEq] at e
        exact (quote_notDigits (e.1.1 ▸ hd)).elim,
      fun d _ h => h.elim (fun h => absurd h (hs d)) fun h => (quote_notDigits h.1).elim, fun d h => absurd h (hs d)⟩
  · intro Δ o ts vs v hI h2 h3 ih sc hco hf hn hb
    obtain ⟨us, b1, b2, b3, b4, b5⟩ := good_list ih hco hf.2.2 hn hb
    obtain ⟨t, c1, c2, c3, c4, c5⟩ := call_str (r := reals) (c := c) (rest := rest) (rlit := rlit) hG hI h3 b2 b3
      (fun h => (hf.1.2.2.1 (List.mem_append_right _ (List.mem_append_right _ h))).imp (fun h => by simpa using varies_mem b5 0 h)
        fun h' => foldsRight_val hG hco h2 (h'.resolve_right (not_or.2 ⟨not_rightAr (List.mem_append_right _ h), not_rightBv (List.mem_append_right _ h)⟩)))
      (fun n h => by simpa [toSrt] using sorts_mem b5 (.inl rfl) n (hf.2.1.2.2 n h))
    obtain ⟨k, hk⟩ := strApp_table h3
    have hk' : (o, k) ∈ bvTable ++ (arTable ++ strTable) := List.mem_append_right _ (List.mem_append_right _ hk)
    have hs : ∀ d, Strictly G d (.mk (.app o 0) ts) → t.sort = toSrt d := by
      rintro d (⟨f, hf', rfl, _⟩ | h)
      · exact absurd hk' ((hG.notOp f hf').2 k)
      · exact c5 d h.1
    have key : ∀ a ∈ strTable, a.1 ∉ [cs!"ite", cs!"abs", cs!"-", cs!"+", cs!"*"] := by decide
    have k1 := key _ hk
    dsimp only at k1
    refine ⟨t, ?_, c2, c3, ?_, notNumeral (by simp), fun d hd h => ?_, hs⟩
    · simp only [T.map, Tag.map, build, b1, Res.ok_bind, List.take_zero, List.drop_zero]
      exact c1
    · intro h
      simp only [Varies] at h
      rcases h with ⟨f, hf', rfl⟩ | ⟨_, h⟩
      · exact absurd hk' ((hG.notOp f hf').2 k)
      · exact c4 (by simpa using varies_mem b5 0 h)
    · rcases h with h | h | h | h | h | h
      · exact .inl (hs d h)
      · exact .inl (c5 d h)
      · exact absurd (by rw [h.1]; decide) k1
      · exact absurd (by rw [h.1]; decide) k1
      · exact absurd (by rw [h.1]; decide) k1
      · have h := h.1
        simp only [List.mem_cons, List.not_mem_nil, or_false] at h
        exact absurd (by rcases h with rfl | rfl | rfl <;> decide) k1
  · intro Δ t q h1 ih sc hco hf hn hb
    obtain ⟨us, b1, b2, b3, b4, b5⟩ := good_list (.cons ih .nil) hco hf.2.2 hn hb
    match us, b4 with
    | [u], _ =>
      have hu : eval ρ u = some (.n q) := by
        simp only [evalL] at b2
        cases e : eval ρ u with
        | none => rw [e] at b2; simp at b2
        | some w => rw [e] at b2; simp at b2; rw [b2]
      obtain ⟨n, c1, c2, c3⟩ := call_neg (G := G) (rest := rest) (rlit := rlit) hc (b3 u (by simp)) hu
      have hs : ∀ d, ¬ Strictly G d (.mk (.app cs!"-" 0) [t]) := fun d => not_strictly hG (.inl ⟨.sub, by decide⟩)
      refine ⟨n, ?_, c2, c3, fun h => absurd h (not_varies hG (k := .sub) (by decide)), notNumeral (by simp), fun d hd h => ?_, fun d h => absurd h (hs d)⟩
      · simp only [T.map, Tag.map, build, b1, Res.ok_bind, List.take_zero, List.drop_zero]
        exact c1
      · have go : OfSortL G reals d 0 [t] → n.sort = toSrt d ∨ n.sort = .ior := fun h => neg_sort (sorts_mem b5 hd 0 h u (by simp)) c1 c2
        rcases h with h | h | h | h | h | h
        · exact absurd h (hs d)
        · obtain ⟨k', h'⟩ := res_table h
          exact absurd (List.mem_append_right _ h') (tables_apart (o := cs!"-") (k := .sub) (by decide) _)
        · exact absurd h.1 (by decide)
        · exact absurd h.1 (by decide)
        · exact go h.2.2
        · exact go h.2.1
  · intro Δ f i ds d σ ts vs v h1 h2 h3 h4 h5 h6 ih sc hco hf hn hb
    obtain ⟨us, b1, b2, b3, b4, b5⟩ := good_list ih hco hf.2.2 hn hb
    obtain ⟨t, c1, c2, c3⟩ := call_fn (c := c) (rest := rest) (rlit := rlit) hG h1 h2 h4 b2 h5 h6 b3
    have hm := List.mem_of_getElem? h1
    have he : t.sort = toSrt d := by rw [c3.2.2, sortIs_toSrt h2]; rfl
    have hs : ∀ d', Strictly G d' (.mk (.app f 0) ts) → t.sort = toSrt d' := by
      rintro d' (⟨g, hg, e1, e2⟩ | h)
      · have := nodup_fst hG.funs hm hg e1.symm
        rw [he, ← e2, ← this]
      · obtain ⟨k', h'⟩ := res_table h.1
        exact absurd (List.mem_append_right _ h') ((hG.notOp _ hm).2 k')
    refine ⟨t, ?_, c2, c3.1, fun _ => ⟨c3.2.1, by rw [c3.2.2]; rfl, by rw [c3.2.2]; rfl⟩, notNumeral (by simp), fun d' hd h => ?_, hs⟩
    · simp only [T.map, Tag.map, build, b1, Res.ok_bind, List.take_zero, List.drop_zero]
      exact c1
    · have no := hG.notOp _ hm
      rcases h with h | h | h | h | h | h
      · exact .inl (hs d' h)
      · obtain ⟨k', h'⟩ := res_table h
        exact absurd (List.mem_append_right _ h') (no.2 k')
      · exact absurd (h.1 ▸ (by decide : (cs!"ite", Kind.ite) ∈ opTable)) (no.1 .ite)
      · exact absurd (h.1 ▸ (by decide : (cs!"abs", Kind.arith 3) ∈ bvTable ++ (arTable ++ strTable))) (no.2 (.arith 3))
      · exact absurd (h.1 ▸ (by decide : (cs!"-", Kind.sub) ∈ opTable)) (no.1 .sub)
      · have h := h.1
        simp only [List.mem_cons, List.not_mem_nil, or_false] at h
        rcases h with rfl | rfl | rfl
        · exact absurd (by decide : (cs!"+", Kind.add) ∈ opTable) (no.1 .add)
        · exact absurd (by decide : (cs!"-", Kind.sub) ∈ opTable) (no.1 .sub)
        · exact absurd (by decide : (cs!"*", Kind.mul) ∈ opTable) (no.1 .mul)
  · intro Δ ns ts b xs v h1 h2 h3 ih1 ih2 sc hco hf hn hb
    obtain ⟨hf1, hf2⟩ := fitsL_append hf.2.2
    obtain ⟨t, a1, a2⟩ := good_lets (don := []) ih1 h1 ih2 hco hco hf1 hf2.1 hn hb
    exact ⟨t, by simpa only [T.map, Tag.map, build] using a1, a2.1, a2.2, fun h => by simp [Varies] at h, notNumeral (by simp),
      fun d _ h => by simp [OfSort] at h, fun d h => by simp [Strictly] at h⟩
  · intro Δ a t v h1 ih sc hco hf hn hb
    simp only [T.names, Tag.names, namesL, List.nil_append, List.append_nil] at hn hb
    obtain ⟨u, a1, a2, a3, _⟩ := ih sc hco hf.2.2.1 hn hb
    refine ⟨u, ?_, a2, a3, fun h => by simp [Varies] at h, notNumeral (by simp), fun d _ h => by simp [OfSort] at h, fun d h => by simp [Strictly] at h⟩
    simp only [T.map, Tag.map, mapL, build, buildL, a1, Res.ok_bind]
    rfl
  · exact .nil
  · intro Δ t ts v vs _ _ h1 h2
    exact .cons h1 h2

theorem node_means (hc : Arith arith reals c) (hG : SigOk G) {e : T D} {v : Val} (hl : LetsOk G e) (hf : Fits G arith reals e)
    (h : Means ρ G [] e v) : ∃ n, node (declared c G.vars G.funs) rest rlit (e.map some) = .ok n ∧ eval ρ n = some v := by
  obtain ⟨t, h1, h2, _⟩ := good_means (rest := rest) (rlit := rlit) hc hG h [] ⟨rfl, (by intro n v h; simp at h), (by intro n t h; simp [letsOf] at h)⟩ hf hl.once
    fun n hn => ⟨rfl, hl.notDeclared n hn, hl.notConstant n hn⟩
  exact ⟨t, h1, h2⟩

theorem node_means_all (hc : Arith arith reals c) (hG : SigOk G) {e : T D} (hl : LetsOk G e) (hf : Fits G arith reals e)
    (h : ∃ ρ v, Means ρ G [] e v) : ∃ n, node (declared c G.vars G.funs) rest rlit (e.map some) = .ok n ∧
      ∀ ρ v, Means ρ G [] e v → eval ρ n = some v := by
  obtain ⟨ρ0, v0, h0⟩ := h
  obtain ⟨n, h1, _⟩ := node_means (rest := rest) (rlit := rlit) hc hG hl hf h0
  refine ⟨n, h1, fun ρ v h => ?_⟩
  obtain ⟨n', h2, h3⟩ := node_means (rest := rest) (rlit := rlit) hc hG hl hf h
  rw [h1] at h2
  cases h2
  exact h3

/-- **C79, a term in a string**: `mkExpr` of a text that writes the term `e` reads it, and the node made for it has in every assignment the
meaning of `e`.  The declared constants and functions are those of `G`; the sort names `decl` have been declared before.  Nothing is assumed
about the constructors and constants that are not modelled (`rest`, `rlit`).  If lets are kept (`pres`) there are none.
Bit-vectors (C80), division and conversions (C83), strings (C84): for assignments that give the operators their meaning (`Interprets`,
`InterpretsAr`, `InterpretsStr`).
Missing: operators of `wrongFold`, `foldOps` and `strFolds` on constants (`fold_str_violated`; those of `FoldsRight`, `FoldsRightAr` and `FoldsRightBv` are right), string literals with escapes, operators on integers and reals whose operands cannot be seen to be of their sort, `zero_extend`, `sign_extend` (`fold_means_violated`, `extend_means_violated`),
relations with other than two operands, sums and products in a logic with neither `I` nor `R` in its name, lets whose names are
declared or bound twice, quantifiers, defined functions and the other theories; the ones on arithmetic and lets are false of the code
(`read_means_violated`). -/
theorem mkExpr_means_partial (pres : Bool) {decl : Decl} (hg : GoodDecl decl) (p : P) (hk : Keys decl p.keys) {x : Sexp} {e : T D}
    (hx : Reads decl p.ph x e) (hb : ∀ n ∈ e.names, n ∉ p.bound) (hp : pres = true → LetFree e) {g tx r : List Char} (h0 : Lex.Skip g)
    (ht : Lay false x tx) (hr : SepX false x r) (hc : Arith arith reals c) (hG : SigOk G) (hl : LetsOk G e) (hf : Fits G arith reals e)
    (hm : ∃ ρ v, Means ρ G [] e v) :
    ∃ (t : T Sorts.Srt) (q : P) (n : SMT.Term) (fuel : Nat), (∀ m, fuel ≤ m → mkExpr pres m p (g ++ (tx ++ r)) = .ok (t, q)) ∧
      node (declared c G.vars G.funs) rest rlit (t.map sortOf) = .ok n ∧ ∀ ρ v, Means ρ G [] e v → eval ρ n = some v := by
  obtain ⟨t, q, fuel, h1, h2⟩ := mkExpr_reads_partial pres hg p hk hx hl.once hb h0 ht hr
  obtain ⟨n, h3, h4⟩ := node_means_all (rest := rest) (rlit := rlit) hc hG hl hf hm
  exact ⟨t, q, n, fuel, h2, by rw [h1]; exact h3, h4⟩

/-- the state of the options for a logic -/
def forLogic (c : SMT.Cfg) (logic : List Char) : SMT.Cfg := { c with intTheory := isIntTheory logic, realTheory := isRealTheory logic }

theorem decs_all {l : List (List Char × Script.Fn D)} (h : ∀ f ∈ l, ∃ ps o, f.2 = .dec ps o) (k : Nat) {l' : List (List Char × Script.Fn Sorts.Srt)}
    (hs : l'.map (fun f => (f.1, f.2.map sortOf)) = l.map fun f => (f.1, f.2.map some)) :
    (l'.zipIdx k).filterMap (fun f => match f.1.2 with
      | .dec ps o => some (f.1.1, ps.length, ((sortOf o).map toSrt).getD .unk, f.2)
      | _ => none) =
    ((l.filterMap fun f => match f.2 with
      | .dec ps o => some (f.1, ps, o)
      | _ => none).zipIdx k).map fun (f : (List Char × List D × D) × Nat) => (f.1.1, f.1.2.1.length, toSrt f.1.2.2, f.2) := by
  induction l generalizing l' k with
  | nil =>
    cases l' with
    | nil => rfl
    | cons _ _ => simp at hs
  | cons f l ih =>
    cases l' with
    | nil => simp at hs
    | cons f' l' =>
      obtain ⟨n, fn⟩ := f
      obtain ⟨n', fn'⟩ := f'
      simp only [List.map_cons, List.cons.injEq, Prod.mk.injEq] at hs
      obtain ⟨⟨rfl, h1⟩, h2⟩ := hs
      obtain ⟨ps, o, e⟩ := h (n', fn) (by simp)
      dsimp only at e
      subst e
      have ih := ih (fun f hf => h f (List.mem_cons_of_mem _ hf)) (k + 1) h2
      cases fn' with
      | dec ps' o' =>
        simp only [Script.Fn.map, Script.Fn.dec.injEq] at h1
        have hlen : ps'.length = ps.length := by have := congrArg List.length h1.1; simpa using this
        simp only [List.zipIdx_cons, List.filterMap_cons, List.map_cons]
        rw [ih, h1.2, hlen]
        rfl
      | defn _ _ _ => simp [Script.Fn.map] at h1
      | recu _ _ _ => simp [Script.Fn.map] at h1

theorem ctx_represents {ds : List Script.Cmd} {s : Script.S} (h : Script.Represents ds s) (hd : NoDefs ds) :
    ctxOf c s = declared (forLogic c (Script.logicOf ds)) (sigOf ds).vars (sigOf ds).funs := by
  have ext : ∀ X Y : Ctx, X.c = Y.c → X.vars = Y.vars → X.funs = Y.funs → X = Y := by
    rintro ⟨_, _, _⟩ ⟨_, _, _⟩ rfl rfl rfl; rfl
  refine ext _ _ ?_ ?_ (decs_all hd 0 h.funs)
  · show forLogic c s.logic = forLogic c (Script.logicOf ds)
    rw [h.logic]
  · have := congrArg (List.map fun (v : List Char × Option D) => (v.1, (v.2.map toSrt).getD .unk)) h.vars
    simp only [List.map_map, Function.comp_def, Option.map_some, Option.getD_some] at this
    exact this

/-- **C79, the assertions of a script**: when a script is read (from a text, with lets expanded), every assertion is recorded, and the
node made for it from the tables of the parser after the commands before it has the meaning that is written. -/
theorem script_means_partial {text : List Char} {cs : List Script.Cmd} (hne : text ≠ []) (h : Script.Script false [] text cs) :
    ∃ (s : Script.S) (k : Nat), (∀ m, k ≤ m → Script.parseStr ⟨false, false⟩ m Script.fresh text = .ok s) ∧
      s.asserts.length = (Script.assertions cs).length ∧
      ∀ ds e g a es, cs = ds ++ .assert e g a :: es → NoDefs ds → Arith arith reals (forLogic c (Script.logicOf ds)) → SigOk (sigOf ds) →
        LetsOk (sigOf ds) e → Fits (sigOf ds) arith reals e → (∃ ρ v, Means ρ (sigOf ds) [] e v) →
        ∃ (t : T Sorts.Srt) (n : SMT.Term), s.asserts[(Script.assertions ds).length]? = some t ∧
          (∀ s0, Script.Represents ds s0 → node (ctxOf c s0) rest rlit (t.map sortOf) = .ok n) ∧
          ∀ ρ v, Means ρ (sigOf ds) [] e v → eval ρ n = some v := by
  obtain ⟨s, k, h1, h2⟩ := Script.str_recorded_partial false hne h
  have hlen : s.asserts.length = (Script.assertions cs).length := by
    have := congrArg List.length h1.asserts
    simpa using this
  refine ⟨s, k, h2, hlen, ?_⟩
  rintro ds e g a es rfl hd hc hG hl hf hm
  obtain ⟨n, h3, h4⟩ := node_means_all (rest := rest) (rlit := rlit) hc hG hl hf hm
  have ha : (Script.assertions (ds ++ .assert e g a :: es))[(Script.assertions ds).length]? = some (e, g, a) := by
    simp [Script.assertions, Script.Cmd.assertion]
  have hi := congrArg (fun (l : List (T (Option D))) => l[(Script.assertions ds).length]?) h1.asserts
  simp only [List.getElem?_map, ha, Option.map_some] at hi
  cases ht : s.asserts[(Script.assertions ds).length]? with
  | none => rw [ht] at hi; cases hi
  | some t =>
    rw [ht] at hi
    simp only [Option.map_some, Option.some.injEq] at hi
    exact ⟨t, n, rfl, fun s0 h0 => by rw [ctx_represents h0 hd, hi]; exact h3, h4⟩

end

end SMT.Mean
