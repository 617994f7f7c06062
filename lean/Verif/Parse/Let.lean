import Verif.Parse.Steps

/-! # Lets in the parser (lemmas for C41, C52) -/

namespace SMT.Parse
open SMT SMT.Text SMT.Lex SMT.Sorts

set_option linter.unusedSimpArgs false
set_option linter.unusedVariables false

/-! ## Is the body a let? -/

theorem isLet_peek {cfg : Cfg} {p q : P} (hc : p.cur = some '(') (h : lpar p = .ok q) :
    isLet cfg p = (getSymbol cfg.file q.lex).bind fun r => .ok (decide (r.1 = cs!"let")) := by
  unfold isLet
  rw [if_pos hc]
  unfold peekSymbol
  unfold P.cur at hc
  unfold lpar parseLpar at h
  cases hr : p.lex.rest with
  | nil => rw [hr] at hc; cases hc
  | cons c s =>
    rw [hr] at hc h
    simp only [List.head?_cons, Option.some.injEq] at hc
    subst hc
    simp only [Res.ok_bind] at h
    injection h with h
    subst h
    simp only
    cases getSymbol cfg.file (scan p.lex.line s) <;> rfl

theorem isLet_word {cfg : Cfg} {w : List Char} {xs : List Sexp} {b : List Char} (h : LayL cfg.file [.list (.atom w :: xs)] b) (p : P) (l : Nat)
    (r : List Char) : isLet cfg (p.at l (b ++ ')' :: r)) = .ok (decide (w = cs!"let")) := by
  obtain ⟨tx, b', g, h1, h2, h3, h4, h5, h6, _, _, _⟩ := part_at h p l r
  obtain ⟨b1, gg, k1, k2, k3, k4⟩ := open_at h1 p l (g ++ (b' ++ ')' :: r))
  obtain ⟨b2, l2, m1, m2, m3, _, _⟩ := word_at k1 p (l + nls gg) (g ++ (b' ++ ')' :: r))
  rw [h5, isLet_peek k2 k3]
  unfold sym at m2
  revert m2
  cases getSymbol cfg.file (p.at (l + nls gg) (b1 ++ ')' :: (g ++ (b' ++ ')' :: r)))).lex with
  | ok a =>
    intro m2
    obtain ⟨a1, a2⟩ := a
    simp only [Res.ok_bind, pure, Res.ok.injEq, Prod.mk.injEq] at m2
    obtain ⟨rfl, _⟩ := m2
    rfl
  | _ => intro m2; cases m2

theorem isLet_list {cfg : Cfg} {ys xs : List Sexp} {b : List Char} (h : LayL cfg.file [.list (.list ys :: xs)] b) (p : P) (l : Nat)
    (r : List Char) : isLet cfg (p.at l (b ++ ')' :: r)) = .ok false := by
  obtain ⟨tx, b', g, h1, h2, h3, h4, h5, h6, _, _, _⟩ := part_at h p l r
  obtain ⟨b1, gg, k1, k2, k3, k4⟩ := open_at h1 p l (g ++ (b' ++ ')' :: r))
  obtain ⟨ty, b2, g2, m1, m2, m3, m4, m5, m6, _, _, _⟩ := part_at k1 p (l + nls gg) (g ++ (b' ++ ')' :: r))
  rw [h5, isLet_peek k2 k3, m5]
  obtain ⟨g3, b3, rfl, _, _⟩ := m1.list_inv
  rw [List.cons_append, at_rest _ _ _ start_lp]
  obtain ⟨w, st, hw⟩ := symGo_paren cfg.file (l + nls gg) (g3 ++ (b3 ++ [')']) ++ (g2 ++ (b2 ++ ')' :: (g ++ (b' ++ ')' :: r))))) [] (by simp)
  have : getSymbol cfg.file ⟨'(' :: (g3 ++ (b3 ++ [')']) ++ (g2 ++ (b2 ++ ')' :: (g ++ (b' ++ ')' :: r))))), modeOf '(', l + nls gg⟩ =
      .ok ('(' :: w, st) := hw
  rw [this]
  simp [Res.bind]

theorem isLet_atom {cfg : Cfg} {a : List Char} {b : List Char} (h : LayL cfg.file [.atom a] b) (p : P) (l : Nat)
    (r : List Char) : isLet cfg (p.at l (b ++ ')' :: r)) = .ok false := by
  obtain ⟨tx, b', g, h1, h2, h3, h4, h5, h6, _, h7, _⟩ := part_at h p l r
  unfold isLet
  rw [if_neg]
  intro hc
  obtain ⟨ys, h⟩ := h7.mp hc
  cases h

theorem isLet_close (cfg : Cfg) (p : P) (l : Nat) (r : List Char) : isLet cfg (p.at l (')' :: r)) = .ok false := by
  unfold isLet
  rw [if_neg]
  rw [cur_at _ _ _ start_rp]
  simp

/-- a body is a let or does not look like one -/
theorem body_cases {cfg : Cfg} {decl : Decl} {ph : Bool} {x : Sexp} {t : T D} (h : Reads decl ph x t) :
    (∃ bs ns vs b u, x = .list [.atom cs!"let", .list bs, b] ∧ t = .mk (.lets ns) (vs ++ [u]) ∧ ReadsB decl ph bs ns vs ∧ Reads decl ph b u) ∨
    (∀ {b : List Char} (_ : LayL cfg.file [x] b) (p : P) (l : Nat) (r : List Char), isLet cfg (p.at l (b ++ ')' :: r)) = .ok false) := by
  have word : ∀ {w : List Char} {xs : List Sexp}, w ≠ cs!"let" → ∀ {b : List Char} (_ : LayL cfg.file [.list (.atom w :: xs)] b) (p : P) (l : Nat)
      (r : List Char), isLet cfg (p.at l (b ++ ')' :: r)) = .ok false := fun hw _ hb p l r => by
    rw [isLet_word hb]; simp [hw]
  cases h with
  | sym => exact .inr fun hb p l r => isLet_atom hb p l r
  | app h _ => exact .inr (word fun e => h (by rw [e]; decide))
  | indexed _ _ => exact .inr fun hb p l r => isLet_list hb p l r
  | under _ _ => exact .inr (word (by decide))
  | bv _ => exact .inr (word (by decide))
  | fpc _ _ _ => exact .inr (word (by decide))
  | asArray => exact .inr (word (by decide))
  | fp _ _ => exact .inr (word (by decide))
  | constArr _ _ => exact .inr fun hb p l r => isLet_list hb p l r
  | quant h _ _ => exact .inr (word (by rcases h with rfl | rfl <;> decide))
  | lets h1 h2 => exact .inl ⟨_, _, _, _, _, rfl, rfl, h1, h2⟩
  | plain _ => exact .inr (word (by decide))
  | named _ => exact .inr (word (by decide))
  | rootInt _ _ _ => exact .inr (word (by decide))

/-! ## One level -/

/-- the bindings of a level are read -/
theorem let_level {cfg : Cfg} {decl : Decl} {ph : Bool} {bs : List Sexp} {b : Sexp} {ns : List (List Char)} {vs : List (T D)}
    (hr : ReadsB decl ph bs ns vs) (hx : ∀ n x, .list [.atom n, x] ∈ bs → ∀ t, Reads decl ph x t → Claim cfg decl ph x t)
    {bb : List Char} (hl : LayL cfg.file [.list bs, b] bb) {p : P} (hp : p.ph = ph) (hk : Keys decl p.keys) (hf : Fresh p (ns ++ namesL vs))
    (l : Nat) (r : List Char) : ∃ p1 vs' q b2 l2 k, lpar (p.at l (bb ++ ')' :: r)) = .ok p1 ∧ SameL vs' vs ∧ Ext decl p q (ns ++ namesL vs) ∧
      LayL cfg.file [b] b2 ∧ l2 + nls b2 = l + nls bb ∧
      ∀ m, k ≤ m → ∀ all, letLevel cfg m {} all p1 = .ok ({ names := ns }, all ++ [(ns, vs')], q.at l2 (b2 ++ ')' :: r)) := by
  obtain ⟨tx, b', g, g1, g2, g3, g4, g5, g6, g7, _, _⟩ := part_at hl p l r
  obtain ⟨b1, gg, k1, k2, k3, k4⟩ := open_at g1 p l (g ++ (b' ++ ')' :: r))
  obtain ⟨vs', q, k, e1, e2, e3⟩ := letBinds_reads hr hx k1 hp hk hf (l + nls gg) (g ++ (b' ++ ')' :: r))
  refine ⟨_, vs', q, b', l + nls gg + nls b1 + nls g, k + 1, by rw [g5, k3], e1, e2, g2, by omega, fun m hm all => ?_⟩
  obtain ⟨m, rfl⟩ : ∃ n, m = n + 1 := ⟨m - 1, by omega⟩
  rw [letLevel, if_neg (by simp), e3 m (by omega)]
  simp only [Res.ok_bind, List.nil_append]
  rw [rpar_at]
  simp only [Res.ok_bind]
  rw [at_gap _ _ _ g3]
  rfl

theorem filter_bound {decl : Decl} {p q : P} {a : List (List Char)} (h : Ext decl p q a) (pres : Bool) (f : List Char → Bool) :
    Ext decl p (if pres then q else { q with bound := q.bound.filter f }) a := by
  cases pres with
  | true => exact h
  | false => exact ⟨h.ph, h.depth, h.keys, fun x hx => h.bound x (List.mem_filter.mp hx).1⟩

/-! ## The loop -/

/-- the names a let binds -/
theorem lets_names (ns : List (List Char)) (vs : List (T D)) (t : T D) :
    (T.mk (.lets ns) (vs ++ [t]) : T D).names = (ns ++ namesL vs) ++ t.names := by
  simp [T.names, Tag.names, namesL_append, namesL]

/-- the loop over the levels of a let, from the bindings to the closing parenthesis -/
theorem let_loop {cfg : Cfg} {decl : Decl} {ph : Bool} {N : Nat}
    (H : ∀ x t, sizeOf x < N → Reads decl ph x t → Claim cfg decl ph x t) : ∀ (M : Nat) {bs : List Sexp} {b : Sexp} {ns : List (List Char)}
    {vs : List (T D)} {t : T D}, sizeOf b < M → sizeOf (Sexp.list bs) < N → sizeOf b < N → ReadsB decl ph bs ns vs → Reads decl ph b t →
    ∀ {bb : List Char} (_ : LayL cfg.file [.list bs, b] bb) {p : P} (_ : p.ph = ph) (_ : Keys decl p.keys)
      (_ : Fresh p ((ns ++ namesL vs) ++ t.names)) (l : Nat) (r : List Char),
    ∃ p1 levels body q c k, lpar (p.at l (bb ++ ')' :: r)) = .ok p1 ∧ Same (nest levels body) (.mk (.lets ns) (vs ++ [t])) ∧
      Ext decl p q ((ns ++ namesL vs) ++ t.names) ∧ ∀ m, k ≤ m → ∀ st all, letLoop cfg (m + c) ({} :: st) all p1 =
        letLoop cfg m ({ names := ns, result := some body, complete := true } :: st) (all ++ levels) (q.at (l + nls bb) (')' :: r))
  | 0, bs, b, ns, vs, t, hM, _, _, _, _, bb, hl, p, hp, hk, hf, l, r => by omega
  | M + 1, bs, b, ns, vs, t, hM, hN1, hN2, hb, ht, bb, hl, p, hp, hk, hf, l, r => by
    obtain ⟨p1, vs', q, b2, l2, k, e1, e2, e3, e4, e5, e6⟩ := let_level hb (fun n x hm u hu => H x u (by
      have := List.sizeOf_lt_of_mem hm
      simp only [Sexp.list.sizeOf_spec, List.cons.sizeOf_spec, List.nil.sizeOf_spec] at this hN1
      omega) hu) hl hp hk hf.left l r
    have hf2 := hf.next e3
    rcases body_cases (cfg := cfg) ht with ⟨bs2, ns2, vs2, b3, u, rfl, rfl, r1, r2⟩ | hno
    · -- a let
      rw [lets_names] at hf2 hf ⊢
      obtain ⟨tx, b', g, g1, g2, g3, g4, g5, g6, g7, _, _⟩ := part_at e4 q l2 r
      obtain ⟨b1, gg, k1, k2, k3, k4⟩ := open_at g1 q l2 (g ++ (b' ++ ')' :: r))
      obtain ⟨b2', l3, m1, m2, m3, _, _⟩ := word_at k1 q (l2 + nls gg) (g ++ (b' ++ ')' :: r))
      simp only [Sexp.list.sizeOf_spec, List.cons.sizeOf_spec, List.nil.sizeOf_spec] at hM hN2
      obtain ⟨p2, levels, body, q2, c, k', f1, f2, f3, f4⟩ := let_loop H M (by omega) (by simp only [Sexp.list.sizeOf_spec]; omega) (by omega) r1 r2 m1
        (e3.ph.trans hp) e3.keys hf2 l3 (g ++ (b' ++ ')' :: r))
      have hq := filter_bound f3 cfg.pres fun x => decide (x ∉ ns2)
      refine ⟨p1, (ns, vs') :: levels, body, if cfg.pres then q2 else { q2 with bound := q2.bound.filter fun x => decide (x ∉ ns2) }, 1 + c + 1, k + k' + 1,
        e1, ?_, e3.trans hq, fun m hm st all => ?_⟩
      · exact Same.mk rfl (e2.append (.cons f2 .nil))
      · have hi : isLet cfg (q.at l2 (b2 ++ ')' :: r)) = .ok true := by rw [isLet_word e4]; rfl
        rw [show m + (1 + c + 1) = (m + 1 + c) + 1 by omega, letLoop, e6 _ (by omega)]
        simp only [Res.ok_bind]
        rw [hi]
        simp only [Res.ok_bind, if_true]
        rw [g5, k3]
        simp only [Res.ok_bind]
        rw [m2]
        simp only [Res.ok_bind]
        rw [f1]
        simp only [Res.ok_bind]
        rw [f4 (m + 1) (by omega), letLoop]
        obtain ⟨m', rfl⟩ : ∃ n, m = n + 1 := ⟨m - 1, by omega⟩
        rw [letLevel, if_pos rfl]
        simp only [Res.ok_bind]
        rw [isLet_close]
        simp only [Res.ok_bind, Bool.false_eq_true, if_false]
        rw [letBody, cur_at _ _ _ start_rp, if_neg (by simp)]
        simp only [Res.ok_bind]
        cases g2.nil_inv
        have hn : l3 + nls b2' + nls g = l + nls bb := by simp at e5 g6; omega
        by_cases hpr : cfg.pres = true
        · simp only [hpr, if_true, rpar_at, Res.ok_bind, at_gap _ _ _ g3, List.nil_append, hn, List.append_assoc, List.singleton_append, List.cons_append]
        · simp only [hpr, if_false]
          show (rpar ({ q2 with bound := q2.bound.filter fun x => decide (x ∉ ns2) }.at (l3 + nls b2') (')' :: (g ++ ([] ++ ')' :: r)))) >>= _) = _
          simp only [rpar_at, Res.ok_bind, at_gap _ _ _ g3, List.nil_append, hn, List.append_assoc, List.singleton_append, List.cons_append]
          rfl
    · -- another body
      obtain ⟨t', q2, k', b3, l3, f1, f2, f3, f4, f5⟩ := claim_part (H b t hN2 ht) e4 (e3.ph.trans hp) e3.keys hf2 l2 r
      refine ⟨p1, [(ns, vs')], t', q2, 0, k + k' + 2, e1, Same.mk rfl (e2.append (.cons f1 .nil)), e3.trans f2, fun m hm st all => ?_⟩
      obtain ⟨m, rfl⟩ : ∃ n, m = n + 1 + 1 := ⟨m - 2, by omega⟩
      rw [Nat.add_zero, letLoop, e6 _ (by omega)]
      simp only [Res.ok_bind]
      rw [hno e4]
      simp only [Res.ok_bind, Bool.false_eq_true, if_false]
      obtain ⟨tx, b', g, g1, g2, g3, g4, g5, g6, g7, _, _⟩ := part_at e4 q l2 r
      rw [letBody, if_pos g7, f5 _ (by omega)]
      simp only [Res.ok_bind]
      cases f3.nil_inv
      rw [letLoop, letLevel, if_pos rfl]
      simp only [Res.ok_bind]
      rw [isLet_close]
      simp only [Res.ok_bind, Bool.false_eq_true, if_false]
      rw [letBody, cur_at _ _ _ start_rp, if_neg (by simp)]
      simp only [Res.ok_bind, pure, List.nil_append]
      have hn : l3 = l + nls bb := by simp at f4; omega
      rw [hn]

/-- the let with its end -/
theorem let_whole {cfg : Cfg} {decl : Decl} {ph : Bool} {N : Nat}
    (H : ∀ x t, sizeOf x < N → Reads decl ph x t → Claim cfg decl ph x t) {bs : List Sexp} {b : Sexp} {ns : List (List Char)}
    {vs : List (T D)} {t : T D} (hN1 : sizeOf (Sexp.list bs) < N) (hN2 : sizeOf b < N) (hb : ReadsB decl ph bs ns vs) (ht : Reads decl ph b t)
    {bb : List Char} (hl : LayL cfg.file [.list bs, b] bb) {p : P} (hp : p.ph = ph) (hk : Keys decl p.keys)
      (hf : Fresh p ((ns ++ namesL vs) ++ t.names)) (l : Nat) (r : List Char) :
    ∃ p1 t' q k, lpar (p.at l (bb ++ ')' :: r)) = .ok p1 ∧ Same t' (.mk (.lets ns) (vs ++ [t])) ∧
      Ext decl p q ((ns ++ namesL vs) ++ t.names) ∧
      ∀ m, k ≤ m → letLoop cfg m [{}] [] p1 = .ok (t', q.at (l + nls bb) (')' :: r)) := by
  obtain ⟨p1, levels, body, q, c, k, e1, e2, e3, e4⟩ := let_loop H (sizeOf b + 1) (by omega) hN1 hN2 hb ht hl hp hk hf l r
  refine ⟨p1, nest levels body, if cfg.pres then q else { q with bound := q.bound.filter fun x => decide (x ∉ ns) }, k + c + 2, e1, e2,
    filter_bound e3 _ _, fun m hm => ?_⟩
  obtain ⟨m, rfl⟩ : ∃ n, m = n + 1 + 1 + c := ⟨m - 2 - c, by omega⟩
  rw [e4 _ (by omega), letLoop, letLevel, if_pos rfl]
  simp only [Res.ok_bind]
  rw [isLet_close]
  simp only [Res.ok_bind, Bool.false_eq_true, if_false]
  rw [letBody, cur_at _ _ _ start_rp, if_neg (by simp)]
  simp only [Res.ok_bind, List.nil_append]
  by_cases hpr : cfg.pres = true
  · simp only [hpr, if_true]
  · simp only [hpr, if_false]
    rfl

end SMT.Parse
