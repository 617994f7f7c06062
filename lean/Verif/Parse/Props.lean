import Verif.Parse.Let

/-!
# Reading expressions (C52)

`reads`: whatever the layout, `parseExpr` reads an S-expression as the term it is.
-/

namespace SMT.Parse
open SMT SMT.Text SMT.Lex SMT.Sorts

set_option linter.unusedSimpArgs false
set_option linter.unusedVariables false

theorem head_at {cfg : Cfg} {a : List Char} {xs : List Sexp} {b : List Char} (h : LayL cfg.file (.atom a :: xs) b) (p : P) (l : Nat)
    (r : List Char) : ∃ b' l', LayL cfg.file xs b' ∧ sym cfg (p.at l (b ++ ')' :: r)) = .ok (a, p.at l' (b' ++ ')' :: r)) ∧
      l' + nls b' = l + nls b ∧ (p.at l (b ++ ')' :: r)).cur ≠ some '(' := by
  obtain ⟨b', l', h1, h2, h3, h4, h5⟩ := word_at h p l r
  refine ⟨b', l', h1, h2, h3, ?_⟩
  obtain ⟨c, w, rfl, _, hc, _⟩ := h4.head
  rw [h5]
  simpa using hc

theorem stoul_ok {w : List Char} (h : Num64 w) : stoul w = .ok (undec w) := stoul_num h

/-- a list whose first part is `(_ g i1 ... ik)` -/
theorem claim_indexed {cfg : Cfg} {decl : Decl} {ph : Bool} {g : List Char} {is xs : List Sexp} {us ts : List (T D)}
    (hi : ∀ x ∈ is, ∀ t, Reads decl ph x t → Claim cfg decl ph x t) (hx : ∀ x ∈ xs, ∀ t, Reads decl ph x t → Claim cfg decl ph x t)
    (h1 : ReadsL decl ph is us) (h2 : ReadsL decl ph xs ts) :
    Claim cfg decl ph (.list (.list (.atom cs!"_" :: .atom g :: is) :: xs)) (.mk (.app g us.length) (us ++ ts)) := by
  intro tx r l p hl _ hp hk hf
  have hnm : (T.mk (.app g us.length) (us ++ ts) : T D).names = namesL us ++ namesL ts := by
    simp [T.names, Tag.names, namesL_append]
  rw [hnm] at hf ⊢
  obtain ⟨b, g0, hb, hc, ho, hn⟩ := open_at hl p l r
  obtain ⟨ty, b', g1, a1, a2, a3, a4, a5, a6, _, a7, _⟩ := part_at hb p (l + nls g0) r
  obtain ⟨b1, g2, c1, c2, c3, c4⟩ := open_at a1 p (l + nls g0) (g1 ++ (b' ++ ')' :: r))
  obtain ⟨b2, l2, d1, d2, d3, _, _⟩ := word_at c1 p (l + nls g0 + nls g2) (g1 ++ (b' ++ ')' :: r))
  obtain ⟨b3, l3, e1, e2, e3, _, _⟩ := word_at d1 p l2 (g1 ++ (b' ++ ')' :: r))
  obtain ⟨us', q, c, k, f1, f2, f3⟩ := args_reads hi h1 e1 hp hk hf.left l3 (g1 ++ (b' ++ ')' :: r))
  obtain ⟨ts', q', c', k', i1, i2, i3⟩ := args_reads hx h2 a2 (f2.ph.trans hp) f2.keys (hf.next f2) (l3 + nls b3 + nls g1) r
  let f : Frame := { state := .pfParams, second := g, args := us', ops := ts' }
  refine ⟨.mk (.app g us.length) (us' ++ ts'), q', f.done (.mk (.app g us.length) (us' ++ ts')), 1 + c' + 1 + c + 1, k + k' + 1,
    Same.mk rfl (f1.append i1), f2.trans i2, rfl, rfl, fun m hm st => ?_⟩
  rw [show m + (1 + c' + 1 + c + 1) = (m + 1 + c' + 1 + c) + 1 by omega, run]
  simp only
  rw [hc, if_neg (by simp), ho]
  simp only [Res.ok_bind]
  obtain ⟨n, hn'⟩ : ∃ n, m + 1 + c' + 1 + c = n + 1 := ⟨m + 1 + c' + c, by omega⟩
  rw [hn', start, if_pos (a7.mpr ⟨_, rfl⟩), a5, c3]
  simp only [Res.ok_bind]
  rw [d2]
  simp only [Res.ok_bind, if_true]
  rw [e2]
  simp only [Res.ok_bind, Res.pure_eq]
  rw [← hn', f3 (m + 1 + c' + 1) (by omega) st _ (.inr (.inl rfl))]
  rw [step_close_args cfg rfl, at_gap _ _ _ a3, i3 (m + 1) (by omega) st _ (.inr (.inr rfl)), step_close_params cfg rfl]
  rw [show l3 + nls b3 + nls g1 + nls b' = l + nls tx by omega, ← f1.length]
  rfl

/-- the coefficients of an algebraic number -/
theorem coeffs_reads {cfg : Cfg} {decl : Decl} {ph : Bool} : ∀ {xs : List Sexp} {ts : List (T D)},
    (∀ x ∈ xs, ∀ t, Reads decl ph x t → Claim cfg decl ph x t) → ReadsL decl ph xs ts →
    ∀ {b : List Char} (_ : LayL cfg.file xs b) {p : P} (_ : p.ph = ph) (_ : Keys decl p.keys) (_ : Fresh p (namesL ts)) (l : Nat) (r : List Char),
    ∃ ts' q k, SameL ts' ts ∧ Ext decl p q (namesL ts) ∧ ∀ m, k ≤ m → ∀ acc,
      coeffs cfg m acc (p.at l (b ++ ')' :: r)) = .ok (acc ++ ts', q.at (l + nls b) (')' :: r))
  | [], _, _, .nil, b, hb, p, hp, hk, hf, l, r => by
    cases hb.nil_inv
    refine ⟨[], p, 1, .nil, Ext.refl hk, fun m hm acc => ?_⟩
    obtain ⟨m, rfl⟩ : ∃ n, m = n + 1 := ⟨m - 1, by omega⟩
    rw [coeffs, List.nil_append, cur_at _ _ _ start_rp, if_pos (by trivial)]
    simp
  | x :: xs, _, hx, .cons h1 h2, b, hb, p, hp, hk, hf, l, r => by
    rename_i t ts
    obtain ⟨tx, b', g, g1, g2, g3, g4, g5, g6, g7, _, g8⟩ := part_at hb p l r
    obtain ⟨t', q, k, b3, l3, e1, e2, e3, e4, e5⟩ := claim_part (hx x (by simp) t h1) hb hp hk hf.left l r
    obtain ⟨ts', q', k', f1, f2, f3⟩ := coeffs_reads (fun y hy => hx y (by simp [hy])) h2 e3 (p := q) (e2.ph.trans hp) e2.keys
      (hf.next e2) l3 r
    refine ⟨t' :: ts', q', k + k' + 1, .cons e1 f1, e2.trans f2, fun m hm acc => ?_⟩
    obtain ⟨m, rfl⟩ : ∃ n, m = n + 1 := ⟨m - 1, by omega⟩
    have hsk : skip (q.at l3 (b3 ++ ')' :: r)) = q.at l3 (b3 ++ ')' :: r) := by
      cases xs with
      | nil => exact (close_at e3 q l3 r).2.2.1
      | cons y ys => obtain ⟨_, _, _, _, _, _, _, _, _, _, _, hh⟩ := part_at e3 q l3 r; exact hh
    rw [coeffs, if_neg g7, e5 m (by omega)]
    simp only [Res.ok_bind]
    rw [hsk, f3 m (by omega), show l3 + nls b3 = l + nls b by omega]
    simp

theorem skip_list {cfg : Cfg} {xs : List Sexp} {b : List Char} (h : LayL cfg.file xs b) (p : P) (l : Nat) (r : List Char) :
    skip (p.at l (b ++ ')' :: r)) = p.at l (b ++ ')' :: r) := by
  cases xs with
  | nil => exact (close_at h p l r).2.2.1
  | cons y ys => obtain ⟨_, _, _, _, _, _, _, _, _, _, _, hh⟩ := part_at h p l r; exact hh

/-- two operands -/
theorem two_reads {cfg : Cfg} {decl : Decl} {ph : Bool} {xs : List Sexp} {ts : List (T D)} (hlen : xs.length = 2)
    (hx : ∀ x ∈ xs, ∀ t, Reads decl ph x t → Claim cfg decl ph x t) (hr : ReadsL decl ph xs ts)
    {b : List Char} (hb : LayL cfg.file xs b) {p : P} (hp : p.ph = ph) (hk : Keys decl p.keys) (hf : Fresh p (namesL ts)) (l : Nat) (r : List Char) :
    ∃ (t1 t2 : T Srt) (q1 q : P) (l1 : Nat) (b1 : List Char) (k : Nat), SameL [t1, t2] ts ∧ Ext decl p q (namesL ts) ∧ ∀ m, k ≤ m →
      expr cfg m (p.at l (b ++ ')' :: r)) = .ok (t1, q1.at l1 (b1 ++ ')' :: r)) ∧
      expr cfg m (q1.at l1 (b1 ++ ')' :: r)) = .ok (t2, q.at (l + nls b) (')' :: r)) := by
  cases hr with
  | nil => cases hlen
  | cons h1 hr =>
    cases hr with
    | nil => cases hlen
    | cons h2 hr =>
      cases hr with
      | cons _ _ => simp at hlen
      | nil =>
        obtain ⟨t1, q1, k1, b1, l1, e1, e2, e3, e4, e5⟩ := claim_part (hx _ (by simp) _ h1) hb hp hk hf.left l r
        have hf2 := hf.next e2
        obtain ⟨t2, q2, k2, b2, l2, f1, f2, f3, f4, f5⟩ := claim_part (hx _ (by simp) _ h2) e3 (e2.ph.trans hp) e2.keys hf2.left l1 r
        cases f3.nil_inv
        refine ⟨t1, t2, q1, q2, l1, b1, k1 + k2, .cons e1 (.cons f1 .nil), ?_, fun m hm => ⟨e5 m (by omega), ?_⟩⟩
        · have := e2.trans f2
          simpa [namesL] using this
        · rw [f5 m (by omega), show l2 = l + nls b by simp at f4; omega]
          rfl

/-- three operands -/
theorem three_reads {cfg : Cfg} {decl : Decl} {ph : Bool} {xs : List Sexp} {ts : List (T D)} (hlen : xs.length = 3)
    (hx : ∀ x ∈ xs, ∀ t, Reads decl ph x t → Claim cfg decl ph x t) (hr : ReadsL decl ph xs ts)
    {b : List Char} (hb : LayL cfg.file xs b) {p : P} (hp : p.ph = ph) (hk : Keys decl p.keys) (hf : Fresh p (namesL ts)) (l : Nat) (r : List Char) :
    ∃ (t1 t2 t3 : T Srt) (q1 q2 q : P) (l1 l2 : Nat) (b1 b2 : List Char) (k : Nat), SameL [t1, t2, t3] ts ∧ Ext decl p q (namesL ts) ∧ ∀ m, k ≤ m →
      expr cfg m (p.at l (b ++ ')' :: r)) = .ok (t1, q1.at l1 (b1 ++ ')' :: r)) ∧
      expr cfg m (q1.at l1 (b1 ++ ')' :: r)) = .ok (t2, q2.at l2 (b2 ++ ')' :: r)) ∧
      expr cfg m (q2.at l2 (b2 ++ ')' :: r)) = .ok (t3, q.at (l + nls b) (')' :: r)) := by
  cases hr with
  | nil => cases hlen
  | cons h1 hr =>
    obtain ⟨t1, q1, k1, b1, l1, e1, e2, e3, e4, e5⟩ := claim_part (hx _ (by simp) _ h1) hb hp hk hf.left l r
    have hf2 := hf.next e2
    obtain ⟨t2, t3, q2, q, l2, b2, k2, f1, f2, f3⟩ := two_reads (by simpa using hlen) (fun x hm => hx x (by simp [hm])) hr e3
      (e2.ph.trans hp) e2.keys hf2 l1 r
    refine ⟨t1, t2, t3, q1, q2, q, l1, l2, b1, b2, k1 + k2, .cons e1 f1, e2.trans f2, fun m hm => ⟨e5 m (by omega), (f3 m (by omega)).1, ?_⟩⟩
    rw [(f3 m (by omega)).2, e4]

/-- every S-expression that is a term is read by the state machine as this term -/
theorem claim (cfg : Cfg) {decl : Decl} (hg : GoodDecl decl) {ph : Bool} : ∀ (N : Nat) (x : Sexp) (t : T D), sizeOf x < N →
    Reads decl ph x t → Claim cfg decl ph x t
  | 0, x, t, h, _ => by omega
  | N + 1, x, t, hN, hr => by
    have ih := claim cfg hg (ph := ph) N
    have ihL : ∀ {xs : List Sexp}, sizeOf xs < N + 1 → ∀ x ∈ xs, ∀ t, Reads decl ph x t → Claim cfg decl ph x t := fun h x hm t ht =>
      ih x t (by have := List.sizeOf_lt_of_mem hm; omega) ht
    cases hr with
    | sym => exact claim_sym cfg decl ph _
    | app hop hxs =>
      rename_i op xs ts
      simp only [Sexp.list.sizeOf_spec, List.cons.sizeOf_spec] at hN
      refine claim_app (xs := xs) (op := op) (ihL (by omega)) hxs ?_ ?_
      · unfold placeholderOp
        simp only [reserved, List.mem_cons, List.not_mem_nil, or_false, not_or] at hop
        simp [hop]
      · intro p b r l hb
        obtain ⟨b', l', h1, h2, h3, h4⟩ := head_at hb p l r
        refine ⟨{ head := op, state := .params }, b', l', rfl, ?_, rfl, rfl, h1, h3, fun m hm => ?_⟩
        · simp only [reserved, List.mem_cons, List.not_mem_nil, or_false, not_or] at hop
          simp [Frame.opName, hop]
        · obtain ⟨m, rfl⟩ : ∃ n, m = n + 1 := ⟨m - 1, by omega⟩
          simp only [reserved, List.mem_cons, List.not_mem_nil, or_false, not_or] at hop
          rw [start, if_neg h4, h2]
          simp only [Res.ok_bind, hop, or_self, if_false]
          rfl
    | indexed h1 h2 =>
      simp only [Sexp.list.sizeOf_spec, List.cons.sizeOf_spec] at hN
      exact claim_indexed (ihL (by omega)) (ihL (by omega)) h1 h2
    | under hg0 hxs =>
      rename_i g xs ts
      simp only [Sexp.list.sizeOf_spec, List.cons.sizeOf_spec] at hN
      simp only [reservedId, fpNames, List.mem_cons, List.not_mem_nil, or_false, not_or] at hg0
      obtain ⟨n1, n2, n3⟩ := hg0
      refine claim_app (xs := xs) (op := g) (ihL (by omega)) hxs ?_ ?_
      · unfold placeholderOp
        simp [n3]
      · intro p b r l hb
        obtain ⟨b', l', h1, h2, h3, h4⟩ := head_at hb p l r
        obtain ⟨b2, l2, k1, k2, k3, k4⟩ := head_at h1 p l' r
        refine ⟨{ head := cs!"_", second := g, state := .params }, b2, l2, rfl, ?_, rfl, rfl, k1, by omega, fun m hm => ?_⟩
        · simp [Frame.opName]
        · obtain ⟨m, rfl⟩ : ∃ n, m = n + 1 := ⟨m - 1, by omega⟩
          have hbv : ¬ (g.length ≥ 2 ∧ g.take 2 = cs!"bv") := fun h => n1 (by rw [← h.2]; exact List.take_prefix _ _)
          rw [start, if_neg h4, h2]
          simp only [Res.ok_bind]
          rw [if_neg (by decide), if_pos (by trivial), k2]
          simp only [Res.ok_bind]
          rw [if_neg hbv]
          simp only [n2, n3, or_self, if_false]
          rfl
    | bv hw =>
      rename_i n w
      refine claim_list fun p b r l hb hp hk hf => ?_
      obtain ⟨b1, l1, h1, h2, h3, h4⟩ := head_at hb p l r
      obtain ⟨b2, l2, k1, k2, k3, _⟩ := head_at h1 p l1 r
      obtain ⟨b3, l3, m1, m2, m3, _⟩ := head_at k1 p l2 r
      obtain ⟨c1, _, _, c2⟩ := close_at m1 p l3 r
      refine ⟨.mk (.bv n (undec w)) [], p, Frame.done { head := cs!"_" } (.mk (.bv n (undec w)) []), 1, Same.mk rfl .nil,
        (Ext.refl hk).mono (by simp), rfl, rfl, fun m hm => ?_⟩
      obtain ⟨m, rfl⟩ : ∃ n, m = n + 1 := ⟨m - 1, by omega⟩
      rw [start, if_neg h4, h2]
      simp only [Res.ok_bind]
      rw [if_neg (by decide), if_pos (by trivial), k2]
      simp only [Res.ok_bind]
      rw [if_pos (by simp), m2]
      simp only [Res.ok_bind]
      rw [stoul_ok hw]
      simp only [Res.ok_bind]
      rw [c1]
      simp only [Res.ok_bind]
      rw [show l3 = l + nls b by omega]
      rfl
    | fpc hg0 he hs =>
      rename_i g e s
      refine claim_list fun p b r l hb hp hk hf => ?_
      obtain ⟨b1, l1, h1, h2, h3, h4⟩ := head_at hb p l r
      obtain ⟨b2, l2, k1, k2, k3, _⟩ := head_at h1 p l1 r
      obtain ⟨b3, l3, m1, m2, m3, _⟩ := head_at k1 p l2 r
      obtain ⟨b4, l4, i1, i2, i3, _⟩ := head_at m1 p l3 r
      obtain ⟨c1, _, _, c2⟩ := close_at i1 p l4 r
      refine ⟨.mk (.fpc g (undec e) (undec s)) [], p, Frame.done { head := cs!"_" } (.mk (.fpc g (undec e) (undec s)) []), 1, Same.mk rfl .nil,
        (Ext.refl hk).mono (by simp), rfl, rfl, fun m hm => ?_⟩
      obtain ⟨m, rfl⟩ : ∃ n, m = n + 1 := ⟨m - 1, by omega⟩
      have hbv : ¬ (g.length ≥ 2 ∧ g.take 2 = cs!"bv") := by
        simp only [fpNames, List.mem_cons, List.not_mem_nil, or_false] at hg0
        rcases hg0 with rfl | rfl | rfl | rfl | rfl | rfl | rfl <;> decide
      simp only [fpNames, List.mem_cons, List.not_mem_nil, or_false] at hg0
      rw [start, if_neg h4, h2]
      simp only [Res.ok_bind]
      rw [if_neg (by decide), if_pos (by trivial), k2]
      simp only [Res.ok_bind]
      rw [if_neg hbv, if_pos hg0, m2]
      simp only [Res.ok_bind]
      rw [i2]
      simp only [Res.ok_bind]
      rw [stoul_ok he]
      simp only [Res.ok_bind]
      rw [stoul_ok hs]
      simp only [Res.ok_bind]
      rw [c1]
      simp only [Res.ok_bind]
      rw [show l4 = l + nls b by omega]
      rfl
    | asArray =>
      rename_i a
      refine claim_list fun p b r l hb hp hk hf => ?_
      obtain ⟨b1, l1, h1, h2, h3, h4⟩ := head_at hb p l r
      obtain ⟨b2, l2, k1, k2, k3, _⟩ := head_at h1 p l1 r
      obtain ⟨b3, l3, m1, m2, m3, _⟩ := head_at k1 p l2 r
      obtain ⟨c1, _, _, c2⟩ := close_at m1 p l3 r
      refine ⟨.mk (.asArray a) [], p, Frame.done { head := cs!"_" } (.mk (.asArray a) []), 1, Same.mk rfl .nil,
        (Ext.refl hk).mono (by simp), rfl, rfl, fun m hm => ?_⟩
      obtain ⟨m, rfl⟩ : ∃ n, m = n + 1 := ⟨m - 1, by omega⟩
      rw [start, if_neg h4, h2]
      simp only [Res.ok_bind]
      rw [if_neg (by decide), if_pos (by trivial), k2]
      simp only [Res.ok_bind]
      rw [if_neg (by decide), if_neg (by decide), if_pos (by trivial), m2]
      simp only [Res.ok_bind]
      rw [c1]
      simp only [Res.ok_bind]
      rw [show l3 = l + nls b by omega]
      rfl
    | fp hlen hxs =>
      rename_i xs ts
      simp only [Sexp.list.sizeOf_spec, List.cons.sizeOf_spec] at hN
      refine claim_list fun p b r l hb hp hk hf => ?_
      have hnm : (T.mk .fp ts : T D).names = namesL ts := rfl
      rw [hnm] at hf ⊢
      obtain ⟨b1, l1, h1, h2, h3, h4⟩ := head_at hb p l r
      obtain ⟨t1, t2, t3, q1, q2, q, l2, l3, b2, b3, k, e1, e2, e3⟩ := three_reads hlen (ihL (by omega)) hxs h1 hp hk hf l1 r
      refine ⟨.mk .fp [t1, t2, t3], q, Frame.done { head := cs!"fp" } (.mk .fp [t1, t2, t3]), k + 1, Same.mk rfl e1, e2, rfl, rfl, fun m hm => ?_⟩
      obtain ⟨m, rfl⟩ : ∃ n, m = n + 1 := ⟨m - 1, by omega⟩
      obtain ⟨x1, x2, x3⟩ := e3 m (by omega)
      rw [start, if_neg h4, h2]
      simp only [Res.ok_bind]
      rw [if_neg (by decide), if_neg (by decide), if_pos (by trivial), x1]
      simp only [Res.ok_bind]
      rw [x2]
      simp only [Res.ok_bind]
      rw [x3]
      simp only [Res.ok_bind]
      rw [rpar_at, h3]
      rfl
    | constArr hs hv =>
      rename_i s d v t
      simp only [Sexp.list.sizeOf_spec, List.cons.sizeOf_spec] at hN
      refine claim_list fun p b r l hb hp hk hf => ?_
      have hnm : (T.mk (.constArr d) [t] : T D).names = t.names := by simp [T.names, Tag.names, namesL]
      rw [hnm] at hf ⊢
      obtain ⟨ty, b', g1, a1, a2, a3, a4, a5, a6, _, a7, _⟩ := part_at hb p l r
      obtain ⟨b1, g2, c1, c2, c3, c4⟩ := open_at a1 p l (g1 ++ (b' ++ ')' :: r))
      obtain ⟨b2, l2, d1, d2, d3, _⟩ := head_at c1 p (l + nls g2) (g1 ++ (b' ++ ')' :: r))
      obtain ⟨b3, l3, e1, e2, e3, _⟩ := head_at d1 p l2 (g1 ++ (b' ++ ')' :: r))
      obtain ⟨so, ks, k, b4, l4, f1, f2, f3, f4, f5⟩ := sort_part (sort_reads cfg hg hs) e1 p hk l3 (g1 ++ (b' ++ ')' :: r))
      obtain ⟨i1, _, _, i2⟩ := close_at f3 { p with keys := ks } l4 (g1 ++ (b' ++ ')' :: r))
      obtain ⟨t', q, k', b5, l5, j1, j2, j3, j4, j5⟩ := claim_part (ih v t (by omega) hv) a2 (p := { p with keys := ks }) hp f2 hf (l4 + nls g1) r
      obtain ⟨o1, _, _, o2⟩ := close_at j3 q l5 r
      refine ⟨.mk (.constArr so) [t'], q, Frame.done {} (.mk (.constArr so) [t']), k + k' + 1,
        Same.mk (by simp [Tag.map, sortOf_denotes f1]) (.cons j1 .nil), ⟨j2.ph, j2.depth, j2.keys, j2.bound⟩, rfl, rfl, fun m hm => ?_⟩
      obtain ⟨m, rfl⟩ : ∃ n, m = n + 1 := ⟨m - 1, by omega⟩
      rw [start, if_pos (a7.mpr ⟨_, rfl⟩), a5, c3]
      simp only [Res.ok_bind]
      rw [d2]
      simp only [Res.ok_bind]
      rw [if_neg (by decide), if_pos (by trivial), e2]
      simp only [Res.ok_bind]
      rw [if_pos (by trivial), f5 m (by omega)]
      simp only [Res.ok_bind]
      rw [i1]
      simp only [Res.ok_bind]
      rw [at_gap _ _ _ a3, j5 m (by omega)]
      simp only [Res.ok_bind]
      rw [o1]
      simp only [Res.ok_bind]
      rw [show l5 = l + nls b by omega]
      rfl
    | quant hh hv hb0 =>
      rename_i h xs vs b0 t
      simp only [Sexp.list.sizeOf_spec, List.cons.sizeOf_spec] at hN
      refine claim_list fun p b r l hb hp hk hf => ?_
      have hnm : (T.mk (.quant h vs) [t] : T D).names = t.names := by simp [T.names, Tag.names, namesL]
      rw [hnm] at hf ⊢
      obtain ⟨b1, l1, h1, h2, h3, h4⟩ := head_at hb p l r
      obtain ⟨ty, b', g1, a1, a2, a3, a4, a5, a6, _, a7, _⟩ := part_at h1 p l1 r
      obtain ⟨b2, g2, c1, c2, c3, c4⟩ := open_at a1 p l1 (g1 ++ (b' ++ ')' :: r))
      obtain ⟨vs', ks, k, d1, d2, d3⟩ := quantVars_reads cfg hg hv c1 hk (l1 + nls g2) (g1 ++ (b' ++ ')' :: r))
      obtain ⟨t', q, k', b5, l5, j1, j2, j3, j4, j5⟩ := claim_part (ih b0 t (by omega) hb0) a2 (p := { p with keys := ks }) hp d2 hf
        (l1 + nls g2 + nls b2 + nls g1) r
      obtain ⟨o1, _, _, o2⟩ := close_at j3 q l5 r
      refine ⟨.mk (.quant h vs') [t'], q, Frame.done { head := h } (.mk (.quant h vs') [t']), k + k' + 2,
        Same.mk (by simp [Tag.map, d1]) (.cons j1 .nil), ⟨j2.ph, j2.depth, j2.keys, j2.bound⟩, rfl, rfl, fun m hm => ?_⟩
      obtain ⟨m, rfl⟩ : ∃ n, m = n + 1 + 1 := ⟨m - 2, by omega⟩
      rw [start, if_neg h4, h2]
      simp only [Res.ok_bind]
      rw [if_pos hh, quantHead, a5, c3]
      simp only [Res.ok_bind]
      rw [d3 m (by omega)]
      simp only [Res.ok_bind, List.nil_append]
      rw [rpar_at]
      simp only [Res.ok_bind, Res.pure_eq]
      rw [at_gap _ _ _ a3, j5 _ (by omega)]
      simp only [Res.ok_bind]
      rw [o1]
      simp only [Res.ok_bind]
      rw [show l5 = l + nls b by omega]
    | lets hbs hb0 =>
      rename_i bs ns vs b0 t
      simp only [Sexp.list.sizeOf_spec, List.cons.sizeOf_spec] at hN
      refine claim_list fun p b r l hb hp hk hf => ?_
      rw [lets_names] at hf ⊢
      obtain ⟨b1, l1, h1, h2, h3, h4⟩ := head_at hb p l r
      let p' : P := { p with bound := if cfg.pres ∧ p.depth = 0 then [] else p.bound, depth := p.depth + 1 }
      have hf' : Fresh p' ((ns ++ namesL vs) ++ t.names) := ⟨hf.1, fun n hn => by
        show n ∉ (if cfg.pres ∧ p.depth = 0 then [] else p.bound)
        split
        · simp
        · exact hf.2 n hn⟩
      obtain ⟨p1, t', q, k, e1, e2, e3, e4⟩ := let_whole (N := N) ih (by simp only [Sexp.list.sizeOf_spec]; omega) (by omega) hbs hb0 h1 (p := p') hp hk hf' l1 r
      have hbd : ∀ x ∈ p'.bound, x ∈ p.bound := by
        intro x hx
        have hx' : x ∈ (if cfg.pres ∧ p.depth = 0 then [] else p.bound) := hx
        split at hx'
        · cases hx'
        · exact hx'
      refine ⟨t', { q with depth := p.depth }, Frame.done { head := cs!"let" } t', k + 1, e2,
        ⟨e3.ph, rfl, e3.keys, fun x hx => (e3.bound x hx).imp_left (hbd x)⟩, rfl, rfl, fun m hm => ?_⟩
      obtain ⟨m, rfl⟩ : ∃ n, m = n + 1 := ⟨m - 1, by omega⟩
      rw [start, if_neg h4, h2]
      simp only [Res.ok_bind]
      rw [if_neg (by decide), if_neg (by decide), if_neg (by decide), if_pos (by trivial)]
      have hq : ∀ s, ({ (if cfg.pres = true ∧ (p.at l1 s).depth = 0 then { p.at l1 s with bound := [] } else p.at l1 s) with
          depth := (if cfg.pres = true ∧ (p.at l1 s).depth = 0 then { p.at l1 s with bound := [] } else p.at l1 s).depth + 1 } : P) = p'.at l1 s := by
        intro s
        show _ = ({ (p.at l1 s) with bound := if cfg.pres ∧ p.depth = 0 then [] else p.bound, depth := p.depth + 1 } : P)
        by_cases hc : cfg.pres = true ∧ p.depth = 0
        · have hc' : cfg.pres = true ∧ (p.at l1 s).depth = 0 := hc
          rw [if_pos hc, if_pos hc']; rfl
        · have hc' : ¬ (cfg.pres = true ∧ (p.at l1 s).depth = 0) := hc
          rw [if_neg hc, if_neg hc']; rfl
      rw [hq, e1]
      simp only [Res.ok_bind]
      rw [e4 m (by omega)]
      simp only [Res.ok_bind]
      have hd : (q.at (l1 + nls b1) (')' :: r)).depth - 1 = p.depth := by
        show q.depth - 1 = p.depth
        rw [e3.depth]
        show p.depth + 1 - 1 = p.depth
        omega
      rw [hd]
      show ((rpar ({ q with depth := p.depth }.at (l1 + nls b1) (')' :: r))) >>= _) = _
      rw [rpar_at, h3]
      rfl
    | plain hb0 =>
      rename_i b0 t
      simp only [Sexp.list.sizeOf_spec, List.cons.sizeOf_spec] at hN
      refine claim_list fun p b r l hb hp hk hf => ?_
      have hnm : (T.mk (.named none) [t] : T D).names = t.names := by simp [T.names, Tag.names, namesL]
      rw [hnm] at hf ⊢
      obtain ⟨b1, l1, h1, h2, h3, h4⟩ := head_at hb p l r
      obtain ⟨t', q, k', b5, l5, j1, j2, j3, j4, j5⟩ := claim_part (ih b0 t (by omega) hb0) h1 hp hk hf l1 r
      obtain ⟨o1, o3, _, o2⟩ := close_at j3 q l5 r
      refine ⟨.mk (.named none) [t'], q, Frame.done { head := cs!"!" } (.mk (.named none) [t']), k' + 1,
        Same.mk rfl (.cons j1 .nil), j2, rfl, rfl, fun m hm => ?_⟩
      obtain ⟨m, rfl⟩ : ∃ n, m = n + 1 := ⟨m - 1, by omega⟩
      rw [start, if_neg h4, h2]
      simp only [Res.ok_bind]
      rw [if_neg (by decide), if_neg (by decide), if_neg (by decide), if_neg (by decide), if_pos (by trivial), j5 m (by omega)]
      simp only [Res.ok_bind]
      rw [keyword, o3, if_neg (by decide)]
      simp only [Res.ok_bind]
      rw [if_neg (by decide), o1]
      simp only [Res.ok_bind]
      rw [show l5 = l + nls b by omega]
      rfl
    | named hb0 =>
      rename_i b0 t a
      simp only [Sexp.list.sizeOf_spec, List.cons.sizeOf_spec] at hN
      refine claim_list fun p b r l hb hp hk hf => ?_
      have hnm : (T.mk (.named (some a)) [t] : T D).names = t.names := by simp [T.names, Tag.names, namesL]
      rw [hnm] at hf ⊢
      obtain ⟨b1, l1, h1, h2, h3, h4⟩ := head_at hb p l r
      obtain ⟨t', q, k', b5, l5, j1, j2, j3, j4, j5⟩ := claim_part (ih b0 t (by omega) hb0) h1 hp hk hf l1 r
      obtain ⟨b6, l6, m1, m2, m3, _, m5⟩ := word_at j3 q l5 r
      obtain ⟨b7, l7, n1, n2, n3, _⟩ := head_at m1 q l6 r
      obtain ⟨o1, o3, _, o2⟩ := close_at n1 q l7 r
      refine ⟨.mk (.named (some a)) [t'], q, Frame.done { head := cs!"!" } (.mk (.named (some a)) [t']), k' + 1,
        Same.mk rfl (.cons j1 .nil), j2, rfl, rfl, fun m hm => ?_⟩
      obtain ⟨m, rfl⟩ : ∃ n, m = n + 1 := ⟨m - 1, by omega⟩
      rw [start, if_neg h4, h2]
      simp only [Res.ok_bind]
      rw [if_neg (by decide), if_neg (by decide), if_neg (by decide), if_neg (by decide), if_pos (by trivial), j5 m (by omega)]
      simp only [Res.ok_bind]
      rw [keyword, m5, if_pos (by trivial), m2]
      simp only [Res.ok_bind]
      rw [if_neg (by decide), if_neg (by decide), if_neg (by decide), if_neg (by decide), if_neg (by decide), if_pos (by trivial)]
      simp only [Res.ok_bind, Res.pure_eq, if_true]
      rw [n2]
      simp only [Res.ok_bind]
      rw [o1]
      simp only [Res.ok_bind]
      rw [show l7 = l + nls b by omega]
    | rootInt hcs hlen hxs =>
      rename_i a cs us xs ts
      simp only [Sexp.list.sizeOf_spec, List.cons.sizeOf_spec] at hN
      refine claim_list fun p b r l hb hp hk hf => ?_
      have hnm : (T.mk .rootInt (us ++ ts) : T D).names = namesL us ++ namesL ts := by simp [T.names, Tag.names, namesL_append]
      rw [hnm] at hf ⊢
      obtain ⟨b1, l1, h1, h2, h3, h4⟩ := head_at hb p l r
      obtain ⟨ty, b', g1, a1, a2, a3, a4, a5, a6, _, a7, _⟩ := part_at h1 p l1 r
      obtain ⟨b2, g2, c1, c2, c3, c4⟩ := open_at a1 p l1 (g1 ++ (b' ++ ')' :: r))
      obtain ⟨b3, l3, d1, d2, d3, _⟩ := head_at c1 p (l1 + nls g2) (g1 ++ (b' ++ ')' :: r))
      obtain ⟨us', q, k, e1, e2, e3⟩ := coeffs_reads (ihL (by omega)) hcs d1 hp hk hf.left l3 (g1 ++ (b' ++ ')' :: r))
      obtain ⟨t1, t2, q1, q2, l5, b5, k', f1, f2, f3⟩ := two_reads hlen (ihL (by omega)) hxs a2 (e2.ph.trans hp) e2.keys (hf.next e2)
        (l3 + nls b3 + nls g1) r
      refine ⟨.mk .rootInt (us' ++ [t1, t2]), q2, Frame.done { head := cs!"root-of-with-interval" } (.mk .rootInt (us' ++ [t1, t2])), k + k' + 2,
        Same.mk rfl (e1.append f1), e2.trans f2, rfl, rfl, fun m hm => ?_⟩
      obtain ⟨m, rfl⟩ : ∃ n, m = n + 1 + 1 := ⟨m - 2, by omega⟩
      obtain ⟨x1, x2⟩ := f3 m (by omega)
      rw [start, if_neg h4, h2]
      simp only [Res.ok_bind]
      rw [if_neg (by decide), if_neg (by decide), if_neg (by decide), if_neg (by decide), if_neg (by decide), if_pos (by trivial), rootInt, a5, c3]
      simp only [Res.ok_bind]
      rw [d2]
      simp only [Res.ok_bind]
      rw [skip_list d1, e3 m (by omega)]
      simp only [Res.ok_bind, List.nil_append]
      rw [rpar_at]
      simp only [Res.ok_bind]
      rw [at_gap _ _ _ a3, x1]
      simp only [Res.ok_bind]
      rw [x2]
      simp only [Res.ok_bind]
      rw [rpar_at]
      simp only [Res.ok_bind, Res.pure_eq]
      rw [show l3 + nls b3 + nls g1 + nls b' = l + nls b by omega]

/-- **C52, an expression is read as the term it is.**  Whatever white space and comments the text has, whatever follows, in a file or in
a string, keeping or expanding lets: if the text is an S-expression that is a term, and its lets bind new names, `parseExpr` makes the
calls of this term — every operator with its operands in the order in which they are written, every sort the one written —, and the cursor
is behind the expression. -/
theorem expr_reads_partial (cfg : Cfg) {decl : Decl} (hg : GoodDecl decl) (p : P) (hk : Keys decl p.keys) {x : Sexp} {t : T D}
    (hx : Reads decl p.ph x t) (hn : t.names.Nodup) (hb : ∀ n ∈ t.names, n ∉ p.bound) {tx r : List Char} (ht : Lay cfg.file x tx)
    (hr : SepX cfg.file x r) (l : Nat) : ∃ (t' : T Srt) (q : P) (fuel : Nat), Same t' t ∧ q.ph = p.ph ∧ q.depth = p.depth ∧ Keys decl q.keys ∧
      (∀ n ∈ q.bound, n ∈ p.bound ∨ n ∈ t.names) ∧ ∀ m, fuel ≤ m → expr cfg m (p.at l (tx ++ r)) = .ok (t', q.at (l + nls tx) r) := by
  obtain ⟨t', q, k, h1, h2, h3⟩ := claim_expr (claim cfg hg (sizeOf x + 1) x t (by omega) hx) (l := l) ht hr rfl hk ⟨hn, hb⟩
  exact ⟨t', q, k, h1, h2.ph, h2.depth, h2.keys, h2.bound, h3⟩

/-- **C52, the layout does not matter**: two texts of the same S-expression are read as the same term. -/
theorem layout_partial (cfg : Cfg) {decl : Decl} (hg : GoodDecl decl) (p : P) (hk : Keys decl p.keys) {x : Sexp} {t : T D}
    (hx : Reads decl p.ph x t) (hn : t.names.Nodup) (hb : ∀ n ∈ t.names, n ∉ p.bound) {tx ty r s : List Char} (h1 : Lay cfg.file x tx)
    (h2 : Lay cfg.file x ty) (hr : SepX cfg.file x r) (hs : SepX cfg.file x s) (l l' : Nat) : ∃ (a b : T Srt) (q q' : P) (fuel : Nat),
      a.map sortOf = b.map sortOf ∧ ∀ m, fuel ≤ m →
        expr cfg m (p.at l (tx ++ r)) = .ok (a, q.at (l + nls tx) r) ∧ expr cfg m (p.at l' (ty ++ s)) = .ok (b, q'.at (l' + nls ty) s) := by
  obtain ⟨a, q, k, e1, _, _, _, _, e2⟩ := expr_reads_partial cfg hg p hk hx hn hb h1 hr l
  obtain ⟨b, q', k', f1, _, _, _, _, f2⟩ := expr_reads_partial cfg hg p hk hx hn hb h2 hs l'
  exact ⟨a, b, q, q', k + k', by rw [e1, f1], fun m hm => ⟨e2 m (by omega), f2 m (by omega)⟩⟩

/-- **C52, an expression in a string** (`mkExpr`): gaps in front are skipped, and what follows is not looked at. -/
theorem mkExpr_reads_partial (pres : Bool) {decl : Decl} (hg : GoodDecl decl) (p : P) (hk : Keys decl p.keys) {x : Sexp} {t : T D}
    (hx : Reads decl p.ph x t) (hn : t.names.Nodup) (hb : ∀ n ∈ t.names, n ∉ p.bound) {g tx r : List Char} (h0 : Skip g) (ht : Lay false x tx)
    (hr : SepX false x r) : ∃ t' q fuel, Same t' t ∧ ∀ m, fuel ≤ m → mkExpr pres m p (g ++ (tx ++ r)) = .ok (t', q) := by
  obtain ⟨t', q, k, e1, _, _, _, _, e2⟩ := expr_reads_partial ⟨false, pres⟩ hg p hk hx hn hb ht hr (1 + nls g)
  refine ⟨t', q.at (1 + nls g + nls tx) r, k, e1, fun m hm => ?_⟩
  obtain ⟨c, w, rfl, _, _, _⟩ := ht.head
  unfold mkExpr
  rw [if_neg (by simp)]
  have := at_gap p 1 (c :: w ++ r) h0
  unfold P.at at this
  rw [this]
  exact e2 m hm

/-! ## Layout on one line -/

mutual
/-- all words are words -/
def Toks : Sexp → Prop
  | .atom a => Tok a
  | .list xs => ToksL xs
/-- all words of a list are words -/
def ToksL : List Sexp → Prop
  | [] => True
  | x :: xs => Toks x ∧ ToksL xs
end

theorem sepX_end (file : Bool) {x : Sexp} {c : Char} (r : List Char) (hc : c = ' ' ∨ c = ')') (h : Toks x) : SepX file x (c :: r) := by
  cases x with
  | list _ => trivial
  | atom a =>
    show Sep file a (c :: r)
    unfold Sep
    split
    · trivial
    · rcases hc with rfl | rfl <;> simp
    · unfold SepPlain
      rcases hc with rfl | rfl
      · exact .inl rfl
      · simp

mutual
/-- the text on one line is a layout -/
theorem lay_flat (file : Bool) : ∀ {x : Sexp}, Toks x → Lay file x (flat x)
  | .atom a, h => .atom h
  | .list xs, h => by
    have := Lay.list (file := file) (g := []) .nil (lay_flats file h)
    simpa [flat] using this
theorem lay_flats (file : Bool) : ∀ {xs : List Sexp}, ToksL xs → LayL file xs (flats xs)
  | [], _ => .nil
  | x :: xs, h => lay_tails file (lay_flat file h.1) h.1 h.2
theorem lay_tails (file : Bool) {x : Sexp} {tx : List Char} (hx : Lay file x tx) (hw : Toks x) :
    ∀ {xs : List Sexp}, ToksL xs → LayL file (x :: xs) (tx ++ tails xs)
  | [], _ => by
    have := LayL.cons (g := []) hx .nil .nil (sepX_end file [] (.inr rfl) hw)
    simpa [tails] using this
  | y :: ys, h => by
    have h1 := lay_tails file (lay_flat file h.1) h.1 h.2
    have := LayL.cons (g := [' ']) hx (.ws (.inl rfl) .nil) h1 (sepX_end file _ (.inl rfl) hw)
    simpa [tails] using this
end

/-! ## Names of declared sorts -/

/-- the rest of the text behind the closing parenthesis -/
def behind : Nat → List Char → Option (List Char)
  | _, [] => none
  | k, c :: s =>
    if c = '(' then behind (k + 1) s
    else if c = ')' then (if k ≤ 1 then some s else behind (k - 1) s)
    else behind k s

theorem behind_word {w : List Char} (h : ∀ c ∈ w, delim c = false) (k : Nat) (r : List Char) : behind k (w ++ r) = behind k r := by
  induction w with
  | nil => rfl
  | cons c w ih =>
    have := h c (by simp)
    simp only [delim, Bool.or_eq_false_iff, beq_eq_false_iff_ne] at this
    rw [List.cons_append, behind, if_neg this.1.2, if_neg this.2, ih fun x hx => h x (by simp [hx])]

theorem behind_space (k : Nat) (r : List Char) : behind k (cs!" " ++ r) = behind k r := rfl

theorem behind_text {d : D} (hg : Good d) : ∀ (k : Nat) (r : List Char), behind (k + 1) (text d ++ r) = behind (k + 1) r := by
  induction d with
  | named n => exact fun k r => behind_word hg.2.1 _ _
  | bv w =>
    intro k r
    simp only [text, List.append_assoc]
    show behind (k + 1 + 1) (dec w ++ (cs!")" ++ r)) = _
    rw [behind_word (dec_delim w)]
    rfl
  | fp e s =>
    intro k r
    simp only [text, List.append_assoc]
    show behind (k + 1 + 1) (dec e ++ (cs!" " ++ (dec s ++ (cs!")" ++ r)))) = _
    rw [behind_word (dec_delim e), behind_space, behind_word (dec_delim s)]
    rfl
  | array i e ih1 ih2 =>
    intro k r
    simp only [text, List.append_assoc]
    show behind (k + 1 + 1) (text i ++ (cs!" " ++ (text e ++ (cs!")" ++ r)))) = _
    rw [ih1 hg.1, behind_space, ih2 hg.2]
    rfl
  | _ => intro k r; rfl

theorem behind_sort {d : D} (hg : Good d) (hw : word d = none) (r : List Char) : behind 0 (text d ++ r) = some r := by
  cases d with
  | bv w =>
    simp only [text, List.append_assoc]
    show behind 1 (dec w ++ (cs!")" ++ r)) = _
    rw [behind_word (dec_delim w)]
    rfl
  | fp e s =>
    simp only [text, List.append_assoc]
    show behind 1 (dec e ++ (cs!" " ++ (dec s ++ (cs!")" ++ r)))) = _
    rw [behind_word (dec_delim e), behind_space, behind_word (dec_delim s)]
    rfl
  | array i e =>
    simp only [text, List.append_assoc]
    show behind 1 (text i ++ (cs!" " ++ (text e ++ (cs!")" ++ r)))) = _
    rw [behind_text hg.1 0, behind_space, behind_text hg.2 0]
    rfl
  | reg => rfl
  | _ => simp [word] at hw

theorem cut_underscore : ∀ {u v r s : List Char}, '_' ∉ u → '_' ∉ v → u ++ '_' :: r = v ++ '_' :: s → u = v ∧ r = s
  | [], [], _, _, _, _, h => by simpa using h
  | [], b :: v, _, _, _, hv, h => by
    simp only [List.nil_append, List.cons_append, List.cons.injEq] at h
    exact absurd (by rw [h.1]; simp) hv
  | a :: u, [], _, _, hu, _, h => by
    simp only [List.nil_append, List.cons_append, List.cons.injEq] at h
    exact absurd (by rw [h.1]; simp) hu
  | a :: u, b :: v, _, _, hu, hv, h => by
    simp only [List.cons_append, List.cons.injEq] at h
    obtain ⟨e1, e2⟩ := cut_underscore (fun hh => hu (by simp [hh])) (fun hh => hv (by simp [hh])) h.2
    exact ⟨by rw [h.1, e1], e2⟩

/-- Names without underscores and delimiters, other than the built-in ones, are told apart. -/
theorem goodDecl {decl : Decl} (h : ∀ n ∈ declNames decl, n ≠ [] ∧ (∀ c ∈ n, delim c = false) ∧ '_' ∉ n ∧ basicSorts.lookup n = none)
    (hc : ∀ x ∈ decl, Over decl x.2) : GoodDecl decl := by
  have hgood : ∀ {d : D}, Over decl d → Good d := by
    intro d
    induction d with
    | named n =>
      intro ho
      obtain ⟨h1, h2, h3, h4⟩ := h n (List.mem_map.2 ⟨_, ho, rfl⟩)
      refine ⟨h1, h2, fun hb => ?_⟩
      simp only [builtin, List.mem_cons, List.not_mem_nil, or_false] at hb
      rcases hb with rfl | rfl | rfl | rfl | rfl <;> cases h4
    | array i e ih1 ih2 => exact fun ho => ⟨ih1 ho.1, ih2 ho.2⟩
    | _ => exact fun _ => trivial
  have hword : ∀ {d : D} {n : List Char}, Over decl d → word d = some n → '_' ∉ n := by
    intro d n ho hw
    cases d <;> simp only [word, Option.some.injEq, reduceCtorEq] at hw <;> subst hw
    case named => exact (h _ (List.mem_map.2 ⟨_, ho, rfl⟩)).2.2.1
    all_goals decide
  refine ⟨fun n hn => (h n hn).2.2.2, fun n hn => ⟨fun ⟨s, hs⟩ => (h n hn).2.2.1 (by rw [← hs]; simp), fun ⟨s, hs⟩ => (h n hn).2.2.1 (by rw [← hs]; simp),
    fun ⟨s, hs⟩ => (h n hn).2.2.1 (by rw [← hs]; simp)⟩, fun i e i' e' o1 o2 o3 o4 he => ?_, fun n d h => hc (n, d) h⟩
  have key : text i = text i' ∧ text e = text e' := by
    cases hi : word i with
    | some n =>
      rw [text_word hi] at he ⊢
      cases hi' : word i' with
      | none =>
        obtain ⟨s, hs⟩ := paren_of_noword hi'
        rw [hs] at he
        exact absurd he (word_paren hi (hgood o1))
      | some m =>
        rw [text_word hi'] at he ⊢
        exact cut_underscore (hword o1 hi) (hword o3 hi') he
    | none =>
      cases hi' : word i' with
      | some m =>
        obtain ⟨s, hs⟩ := paren_of_noword hi
        rw [hs, text_word hi'] at he
        exact absurd he.symm (word_paren hi' (hgood o3))
      | none =>
        have h1 := behind_sort (hgood o1) hi ('_' :: text e)
        rw [he, behind_sort (hgood o3) hi'] at h1
        simp only [Option.some.injEq, List.cons.injEq, true_and] at h1
        rw [h1, List.append_left_inj] at he
        exact ⟨he, h1.symm⟩
  refine ⟨(text_unique i i' [] [] (hgood o1) (hgood o3) (.inl rfl) (.inl rfl) (by rw [key.1])).1,
    (text_unique e e' [] [] (hgood o2) (hgood o4) (.inl rfl) (.inl rfl) (by rw [key.2])).1⟩

end SMT.Parse
