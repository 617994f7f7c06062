import Verif.Parse.SortProps

/-! # The steps of the parser (lemmas for C41, C52) -/

namespace SMT.Parse
open SMT SMT.Text SMT.Lex SMT.Sorts

set_option linter.unusedSimpArgs false
set_option linter.unusedVariables false

/-! ## States and trees -/

/-- the parser after reading: nothing is forgotten, and only the given names may have become bound -/
structure Ext (decl : Decl) (p q : P) (ns : List (List Char)) : Prop where
  ph : q.ph = p.ph
  depth : q.depth = p.depth
  keys : Keys decl q.keys
  bound : ∀ x ∈ q.bound, x ∈ p.bound ∨ x ∈ ns

theorem Ext.trans {decl : Decl} {p q s : P} {a b : List (List Char)} (h1 : Ext decl p q a) (h2 : Ext decl q s b) :
    Ext decl p s (a ++ b) := by
  refine ⟨h2.ph.trans h1.ph, h2.depth.trans h1.depth, h2.keys, fun x hx => ?_⟩
  rcases h2.bound x hx with h | h
  · rcases h1.bound x h with h | h
    · exact .inl h
    · exact .inr (by simp [h])
  · exact .inr (by simp [h])

theorem Ext.mono {decl : Decl} {p q : P} {a b : List (List Char)} (h : Ext decl p q a) (hs : ∀ x ∈ a, x ∈ b) :
    Ext decl p q b := ⟨h.ph, h.depth, h.keys, fun x hx => (h.bound x hx).imp_right (hs x)⟩

theorem Ext.refl {decl : Decl} {p : P} (h : Keys decl p.keys) : Ext decl p p [] := ⟨rfl, rfl, h, fun _ hx => .inl hx⟩

theorem Ext.sort {decl : Decl} {p : P} {ks : List (List Char × Srt)} (h : Keys decl ks) : Ext decl p { p with keys := ks } [] :=
  ⟨rfl, rfl, h, fun _ hx => .inl hx⟩

/-- the names of what is still to be read are new: they are different from each other and not bound -/
def Fresh (p : P) (ns : List (List Char)) : Prop := ns.Nodup ∧ ∀ n ∈ ns, n ∉ p.bound

theorem Fresh.left {p : P} {a b : List (List Char)} (h : Fresh p (a ++ b)) : Fresh p a :=
  ⟨(List.nodup_append.mp h.1).1, fun n hn => h.2 n (by simp [hn])⟩
theorem Fresh.right {p : P} {a b : List (List Char)} (h : Fresh p (a ++ b)) : Fresh p b :=
  ⟨(List.nodup_append.mp h.1).2.1, fun n hn => h.2 n (by simp [hn])⟩
theorem Fresh.next {decl : Decl} {p q : P} {a b : List (List Char)} (h : Fresh p (a ++ b)) (he : Ext decl p q a) : Fresh q b := by
  refine ⟨h.right.1, fun n hn hq => ?_⟩
  rcases he.bound n hq with h1 | h1
  · exact h.right.2 n hn h1
  · exact (List.nodup_append.mp h.1).2.2 n h1 n hn rfl
theorem Fresh.of_eq {p q : P} {a : List (List Char)} (h : Fresh p a) (he : q.bound = p.bound) : Fresh q a :=
  ⟨h.1, fun n hn => by rw [he]; exact h.2 n hn⟩

/-- lists of trees -/
def SameL (ts : List (T Srt)) (us : List (T D)) : Prop := mapL sortOf ts = mapL some us

theorem mapL_append {σ τ : Type} (f : σ → τ) (a b : List (T σ)) : mapL f (a ++ b) = mapL f a ++ mapL f b := by
  induction a with
  | nil => rfl
  | cons t a ih => simp [mapL, ih]
theorem mapL_length {σ τ : Type} (f : σ → τ) (a : List (T σ)) : (mapL f a).length = a.length := by
  induction a with
  | nil => rfl
  | cons t a ih => simp [mapL, ih]
theorem namesL_append {σ : Type} (a b : List (T σ)) : namesL (a ++ b) = namesL a ++ namesL b := by
  induction a with
  | nil => rfl
  | cons t a ih => simp [namesL, ih]

theorem SameL.nil : SameL [] [] := rfl
theorem SameL.cons {t : T Srt} {u : T D} {ts : List (T Srt)} {us : List (T D)} (h : Same t u) (hs : SameL ts us) :
    SameL (t :: ts) (u :: us) := by
  unfold SameL Same at *
  simp [mapL, h, hs]
theorem SameL.append {a b : List (T Srt)} {c d : List (T D)} (h1 : SameL a c) (h2 : SameL b d) : SameL (a ++ b) (c ++ d) := by
  unfold SameL at *
  rw [mapL_append, mapL_append, h1, h2]
theorem SameL.length {a : List (T Srt)} {b : List (T D)} (h : SameL a b) : a.length = b.length := by
  have := congrArg List.length h
  simpa [mapL_length] using this
theorem Same.mk {g : Tag Srt} {g' : Tag D} {ts : List (T Srt)} {us : List (T D)} (h : g.map sortOf = g'.map some) (hs : SameL ts us) :
    Same (.mk g ts) (.mk g' us) := by
  unfold Same SameL at *
  simp [T.map, h, hs]

/-! ## Reading one expression -/

/-- the state machine reads the S-expression as the term -/
def Claim (cfg : Cfg) (decl : Decl) (ph : Bool) (x : Sexp) (t : T D) : Prop :=
  ∀ (tx r : List Char) (l : Nat) (p : P), Lay cfg.file x tx → SepX cfg.file x r → p.ph = ph → Keys decl p.keys → Fresh p t.names →
    ∃ t' q f c k, Same t' t ∧ Ext decl p q t.names ∧ f.state = .finish ∧ f.result = some t' ∧
      ∀ m, k ≤ m → ∀ st, run cfg (m + c) ({} :: st) (p.at l (tx ++ r)) = run cfg m (f :: st) (q.at (l + nls tx) r)

/-- `parseExpr` reads it -/
theorem claim_expr {cfg : Cfg} {decl : Decl} {ph : Bool} {x : Sexp} {t : T D} (h : Claim cfg decl ph x t)
    {tx r : List Char} {l : Nat} {p : P} (hl : Lay cfg.file x tx) (hs : SepX cfg.file x r) (hp : p.ph = ph) (hk : Keys decl p.keys)
    (hf : Fresh p t.names) : ∃ t' q k, Same t' t ∧ Ext decl p q t.names ∧
      ∀ m, k ≤ m → expr cfg m (p.at l (tx ++ r)) = .ok (t', q.at (l + nls tx) r) := by
  obtain ⟨t', q, f, c, k, h1, h2, h3, h4, h5⟩ := h tx r l p hl hs hp hk hf
  refine ⟨t', q, k + c + 2, h1, h2, fun m hm => ?_⟩
  obtain ⟨n, rfl⟩ : ∃ n, m = n + 1 + c + 1 := ⟨m - c - 2, by omega⟩
  rw [expr, h5 (n + 1) (by omega)]
  unfold run
  simp only [h3, h4]

/-- an expression that is a part of a list -/
theorem claim_part {cfg : Cfg} {decl : Decl} {ph : Bool} {x : Sexp} {t : T D} (h : Claim cfg decl ph x t) {xs : List Sexp}
    {b : List Char} (hl : LayL cfg.file (x :: xs) b) {p : P} (hp : p.ph = ph) (hk : Keys decl p.keys) (hf : Fresh p t.names) (l : Nat)
    (r : List Char) : ∃ t' q k b' l', Same t' t ∧ Ext decl p q t.names ∧ LayL cfg.file xs b' ∧ l' + nls b' = l + nls b ∧
      ∀ m, k ≤ m → expr cfg m (p.at l (b ++ ')' :: r)) = .ok (t', q.at l' (b' ++ ')' :: r)) := by
  obtain ⟨tx, b', g, h1, h2, h3, h4, h5, h6, _, _, _⟩ := part_at hl p l r
  obtain ⟨t', q, k, e1, e2, e3⟩ := claim_expr h (l := l) h1 h4 hp hk hf
  refine ⟨t', q, k, b', l + nls tx + nls g, e1, e2, h2, by rw [h6]; omega, fun m hm => ?_⟩
  rw [h5, e3 m hm, at_gap _ _ _ h3]

theorem claim_sym (cfg : Cfg) (decl : Decl) (ph : Bool) (a : List Char) :
    Claim cfg decl ph (.atom a) (.mk (.sym a ph) []) := by
  intro tx r l p hl hs hp hk hf
  obtain ⟨rfl, ht⟩ := hl.atom_inv
  obtain ⟨c, w, rfl, hc, n1, n2⟩ := ht.head
  have hcur : (p.at l (c :: w ++ r)).cur = some c := by rw [List.cons_append]; exact cur_at _ _ _ hc
  refine ⟨.mk (.sym (c :: w) p.ph) [], p, Frame.done {} (.mk (.sym (c :: w) p.ph) []), 1, 0, ?_, ?_, rfl, rfl, fun m _ st => ?_⟩
  · rw [hp]; exact Same.mk rfl .nil
  · exact (Ext.refl hk).mono (by simp)
  · rw [run]
    simp only
    rw [hcur, if_pos (by simpa using n1), sym_at cfg p l r ht hs]
    rfl

/-- a list whose reading goes through `start` and is then finished -/
theorem claim_list {cfg : Cfg} {decl : Decl} {ph : Bool} {ys : List Sexp} {t : T D}
    (h : ∀ (p : P) (b r : List Char) (l : Nat), LayL cfg.file ys b → p.ph = ph → Keys decl p.keys → Fresh p t.names →
      ∃ t' q f k, Same t' t ∧ Ext decl p q t.names ∧ f.state = .finish ∧ f.result = some t' ∧
        ∀ m, k ≤ m → start cfg m {} (p.at l (b ++ ')' :: r)) = .ok (f, q.at (l + nls b) r)) : Claim cfg decl ph (.list ys) t := by
  intro tx r l p hl _ hp hk hf
  obtain ⟨b, g, hb, hc, ho, hn⟩ := open_at hl p l r
  obtain ⟨t', q, f, k, h1, h2, h3, h4, h5⟩ := h p b r (l + nls g) hb hp hk hf
  refine ⟨t', q, f, 1, k, h1, h2, h3, h4, fun m hm st => ?_⟩
  rw [run]
  simp only
  rw [hc, if_neg (by simp), ho]
  simp only [Res.ok_bind]
  rw [h5 m hm]
  simp only [Res.ok_bind]
  rw [show l + nls g + nls b = l + nls tx by omega]

/-! ## Operands -/

/-- the frame collects operands -/
def Collects (f : Frame) : Prop :=
  (f.state = .params ∧ placeholderOp f.opName = false) ∨ f.state = .pfArgs ∨ f.state = .pfParams

/-- operands added -/
def Frame.add (f : Frame) (ts : List (T Srt)) : Frame :=
  match f.state with
  | .params | .pfParams => { f with ops := f.ops ++ ts }
  | .pfArgs => { f with args := f.args ++ ts }
  | _ => f

theorem add_nil (f : Frame) : f.add [] = f := by
  unfold Frame.add; split <;> simp
theorem add_add (f : Frame) (a b : List (T Srt)) : (f.add a).add b = f.add (a ++ b) := by
  obtain ⟨s, h, g, x, y, z⟩ := f
  cases s <;> simp [Frame.add]
theorem add_collects {f : Frame} (h : Collects f) (ts : List (T Srt)) : Collects (f.add ts) := by
  obtain ⟨s, hd, g, x, y, z⟩ := f
  cases s <;> exact h

theorem step_collect (cfg : Cfg) {f : Frame} (h : Collects f) {p : P} (hs : skip p = p) (hc : p.cur ≠ some ')') (m : Nat) (st : List Frame) :
    run cfg (m + 1) (f :: st) p = run cfg m ({} :: f :: st) p := by
  rw [run]
  rcases h with ⟨h1, h2⟩ | h | h
  · simp only [h1, h2, Bool.false_eq_true, if_false, hs, if_neg hc]
  · simp only [h, hs, if_neg hc]
  · simp only [h, hs, if_neg hc]

theorem step_finish (cfg : Cfg) {f g : Frame} (h : Collects f) {t : T Srt} (hg : g.state = .finish) (hr : g.result = some t) (m : Nat)
    (st : List Frame) (p : P) : run cfg (m + 1) (g :: f :: st) p = run cfg m (f.add [t] :: st) p := by
  rw [run]
  simp only [hg, hr]
  rcases h with ⟨h1, h2⟩ | h | h
  · simp only [h1, Frame.add]
  · simp only [h, Frame.add]
  · simp only [h, Frame.add]

/-- the operands of a frame are read -/
theorem args_reads {cfg : Cfg} {decl : Decl} {ph : Bool} : ∀ {xs : List Sexp} {ts : List (T D)},
    (∀ x ∈ xs, ∀ t, Reads decl ph x t → Claim cfg decl ph x t) → ReadsL decl ph xs ts →
    ∀ {b : List Char} (_ : LayL cfg.file xs b) {p : P} (_ : p.ph = ph) (_ : Keys decl p.keys) (_ : Fresh p (namesL ts)) (l : Nat) (r : List Char),
    ∃ ts' q c k, SameL ts' ts ∧ Ext decl p q (namesL ts) ∧ ∀ m, k ≤ m → ∀ st f, Collects f →
      run cfg (m + c) (f :: st) (p.at l (b ++ ')' :: r)) = run cfg m (f.add ts' :: st) (q.at (l + nls b) (')' :: r))
  | [], _, _, .nil, b, hb, p, hp, hk, hf, l, r => by
    cases hb.nil_inv
    refine ⟨[], p, 0, 0, .nil, Ext.refl hk, fun m _ st f _ => ?_⟩
    rw [add_nil]
    rfl
  | x :: xs, _, hx, .cons h1 h2, b, hb, p, hp, hk, hf, l, r => by
    rename_i t ts
    obtain ⟨tx, b', g, g1, g2, g3, g4, g5, g6, g7, _, g8⟩ := part_at hb p l r
    obtain ⟨t', q, fr, c, k, e1, e2, e3, e4, e5⟩ := hx x (by simp) t h1 tx _ l p g1 g4 hp hk hf.left
    obtain ⟨ts', q', c', k', f1, f2, f3⟩ := args_reads (fun y hy => hx y (by simp [hy])) h2 g2 (p := q) (e2.ph.trans hp) e2.keys
      (hf.next e2) (l + nls tx + nls g) r
    refine ⟨t' :: ts', q', c' + 1 + c + 1, k + k', .cons e1 f1, e2.trans f2, fun m hm st f hc => ?_⟩
    have s1 := step_collect cfg hc g8 g7 (m + c' + 1 + c) st
    rw [show m + (c' + 1 + c + 1) = m + c' + 1 + c + 1 by omega, s1, g5, e5 (m + c' + 1) (by omega),
      step_finish cfg hc e3 e4, at_gap _ _ _ g3, f3 m (by omega) st _ (add_collects hc _), add_add]
    rw [show l + nls tx + nls g + nls b' = l + nls b by omega]
    rfl

/-- the closing parenthesis behind the operands -/
theorem step_close (cfg : Cfg) {f : Frame} (h : f.state = .params) (hp : placeholderOp f.opName = false) (m : Nat) (st : List Frame)
    (p : P) (l : Nat) (r : List Char) : run cfg (m + 1) (f :: st) (p.at l (')' :: r)) =
      run cfg m (f.done (.mk (.app f.opName f.args.length) (f.args ++ f.ops)) :: st) (p.at l r) := by
  rw [run]
  simp only [h, hp, Bool.false_eq_true, if_false, skip_at _ _ _ start_rp, cur_at _ _ _ start_rp, if_true, rpar_at, Res.ok_bind]

theorem step_close_args (cfg : Cfg) {f : Frame} (h : f.state = .pfArgs) (m : Nat) (st : List Frame) (p : P) (l : Nat) (r : List Char) :
    run cfg (m + 1) (f :: st) (p.at l (')' :: r)) = run cfg m ({ f with state := .pfParams } :: st) (p.at l r) := by
  rw [run]
  simp only [h, skip_at _ _ _ start_rp, cur_at _ _ _ start_rp, if_true, rpar_at, Res.ok_bind]

theorem step_close_params (cfg : Cfg) {f : Frame} (h : f.state = .pfParams) (m : Nat) (st : List Frame) (p : P) (l : Nat) (r : List Char) :
    run cfg (m + 1) (f :: st) (p.at l (')' :: r)) =
      run cfg m (f.done (.mk (.app f.second f.args.length) (f.args ++ f.ops)) :: st) (p.at l r) := by
  rw [run]
  simp only [h, skip_at _ _ _ start_rp, cur_at _ _ _ start_rp, if_true, rpar_at, Res.ok_bind]

/-- a list that is read as an application: `start` makes a collecting frame -/
theorem claim_app {cfg : Cfg} {decl : Decl} {ph : Bool} {ys xs : List Sexp} {ts : List (T D)} {op : List Char}
    (hx : ∀ x ∈ xs, ∀ t, Reads decl ph x t → Claim cfg decl ph x t) (hr : ReadsL decl ph xs ts) (hop : placeholderOp op = false)
    (h : ∀ (p : P) (b r : List Char) (l : Nat), LayL cfg.file ys b →
      ∃ f b' l', f.state = .params ∧ f.opName = op ∧ f.args = [] ∧ f.ops = [] ∧ LayL cfg.file xs b' ∧ l' + nls b' = l + nls b ∧
        ∀ m, 1 ≤ m → start cfg m {} (p.at l (b ++ ')' :: r)) = .ok (f, p.at l' (b' ++ ')' :: r))) :
    Claim cfg decl ph (.list ys) (.mk (.app op 0) ts) := by
  intro tx r l p hl _ hp hk hf
  have hnm : (T.mk (.app op 0) ts : T D).names = namesL ts := rfl
  rw [hnm] at hf ⊢
  obtain ⟨b, g, hb, hc, ho, hn⟩ := open_at hl p l r
  obtain ⟨f, b', l', h1, h2, h3, h4, h5, h6, h7⟩ := h p b r (l + nls g) hb
  obtain ⟨ts', q, c, k, e1, e2, e3⟩ := args_reads hx hr h5 hp hk hf l' r
  have hcol : Collects f := .inl ⟨h1, by rw [h2]; exact hop⟩
  have hadd : f.add ts' = { f with ops := ts' } := by simp [Frame.add, h1, h4]
  refine ⟨.mk (.app op 0) ts', q, Frame.done { f with ops := ts' } (.mk (.app op 0) ts'), 1 + c + 1, k + 1, Same.mk rfl e1, e2, rfl, rfl, fun m hm st => ?_⟩
  · rw [show m + (1 + c + 1) = (m + 1 + c) + 1 by omega, run]
    simp only
    rw [hc, if_neg (by simp), ho]
    simp only [Res.ok_bind]
    rw [h7 (m + 1 + c) (by omega)]
    simp only [Res.ok_bind]
    rw [e3 (m + 1) (by omega) st f hcol, hadd, step_close cfg (by exact h1) (by show placeholderOp f.opName = false; rw [h2]; exact hop),
      show l' + nls b' = l + nls tx by omega]
    simp only [h3, List.length_nil, List.nil_append]
    have : Frame.opName { state := f.state, head := f.head, second := f.second, ops := ts', result := f.result } = op := h2
    rw [this]

/-! ## Quantifiers -/

theorem quantVars_reads (cfg : Cfg) {decl : Decl} (hg : GoodDecl decl) : ∀ {xs : List Sexp} {vs : List (List Char × D)},
    Vars decl xs vs → ∀ {b : List Char} (_ : LayL cfg.file xs b) {p : P} (_ : Keys decl p.keys) (l : Nat) (r : List Char),
    ∃ vs' ks k, (vs'.map fun v => (v.1, sortOf v.2)) = (vs.map fun v => (v.1, some v.2)) ∧ Keys decl ks ∧
      ∀ m, k ≤ m → ∀ acc, quantVars cfg m acc (p.at l (b ++ ')' :: r)) = .ok (acc ++ vs', { p with keys := ks }.at (l + nls b) (')' :: r)) := by
  intro xs vs h
  induction h with
  | nil =>
    intro b hb p hk l r
    cases hb.nil_inv
    refine ⟨[], p.keys, 1, rfl, hk, fun m hm acc => ?_⟩
    obtain ⟨m, rfl⟩ : ∃ n, m = n + 1 := ⟨m - 1, by omega⟩
    rw [quantVars, List.nil_append, cur_at _ _ _ start_rp, if_pos rfl]
    simp
  | cons h1 _ ih =>
    rename_i x s d xs vs _
    intro b hb p hk l r
    obtain ⟨tx, b', g, g1, g2, g3, g4, g5, g6, g7, _, _⟩ := part_at hb p l r
    obtain ⟨b1, gg, k1, k2, k3, k4⟩ := open_at g1 p l (g ++ (b' ++ ')' :: r))
    obtain ⟨b2, l2, m1, m2, m3, _, _⟩ := word_at k1 p (l + nls gg) (g ++ (b' ++ ')' :: r))
    obtain ⟨so, ks, k, b3, l3, n1, n2, n3, n4, n5⟩ := sort_part (sort_reads cfg hg h1) m1 p hk l2 (g ++ (b' ++ ')' :: r))
    obtain ⟨c1, _, _, c2⟩ := close_at n3 { p with keys := ks } l3 (g ++ (b' ++ ')' :: r))
    obtain ⟨vs', ks', k', i1, i2, i3⟩ := ih g2 (p := { p with keys := ks }) n2 (l3 + nls g) r
    refine ⟨(x, so) :: vs', ks', k + k' + 1, ?_, i2, fun m hm acc => ?_⟩
    · simp [i1, sortOf_denotes n1]
    · obtain ⟨m, rfl⟩ : ∃ n, m = n + 1 := ⟨m - 1, by omega⟩
      rw [quantVars, if_neg g7, g5, k3]
      simp only [Res.ok_bind]
      rw [m2]
      simp only [Res.ok_bind]
      rw [n5 m (by omega)]
      simp only [Res.ok_bind]
      rw [c1]
      simp only [Res.ok_bind]
      rw [at_gap _ _ _ g3, i3 m (by omega)]
      rw [show l3 + nls g + nls b' = l + nls b by omega]
      simp

/-! ## Lets -/

theorem letBinds_reads {cfg : Cfg} {decl : Decl} {ph : Bool} : ∀ {bs : List Sexp} {ns : List (List Char)} {vs : List (T D)},
    ReadsB decl ph bs ns vs → (∀ n x, .list [.atom n, x] ∈ bs → ∀ t, Reads decl ph x t → Claim cfg decl ph x t) →
    ∀ {b : List Char} (_ : LayL cfg.file bs b) {p : P} (_ : p.ph = ph) (_ : Keys decl p.keys) (_ : Fresh p (ns ++ namesL vs)) (l : Nat)
      (r : List Char),
    ∃ vs' q k, SameL vs' vs ∧ Ext decl p q (ns ++ namesL vs) ∧ ∀ m, k ≤ m → ∀ ns0 vs0,
      letBinds cfg m ns0 vs0 (p.at l (b ++ ')' :: r)) = .ok (ns0 ++ ns, vs0 ++ vs', q.at (l + nls b) (')' :: r))
  | _, _, _, .nil, _, b, hb, p, hp, hk, hf, l, r => by
    cases hb.nil_inv
    refine ⟨[], p, 1, .nil, Ext.refl hk, fun m hm ns0 vs0 => ?_⟩
    obtain ⟨m, rfl⟩ : ∃ n, m = n + 1 := ⟨m - 1, by omega⟩
    rw [letBinds, List.nil_append, cur_at _ _ _ start_rp, if_pos rfl]
    simp
  | _, _, _, .cons h1 h2, hx, b, hb, p, hp, hk, hf, l, r => by
    rename_i n x xs t ns ts
    obtain ⟨tx, b', g, g1, g2, g3, g4, g5, g6, g7, _, _⟩ := part_at hb p l r
    obtain ⟨b1, gg, k1, k2, k3, k4⟩ := open_at g1 p l (g ++ (b' ++ ')' :: r))
    obtain ⟨b2, l2, m1, m2, m3, _, _⟩ := word_at k1 p (l + nls gg) (g ++ (b' ++ ')' :: r))
    have hnd := hf.1
    have hn : n ∉ p.bound := hf.2 n (by simp)
    have hft : Fresh p t.names :=
      ⟨by
        have h := hf.right.1
        simp only [namesL] at h
        exact (List.nodup_append.mp h).1, fun y hy => hf.2 y (by simp [namesL, hy])⟩
    obtain ⟨t', q, k, b3, l3, e1, e2, e3, e4, e5⟩ := claim_part (hx n x (by simp) t h1) m1 hp hk hft l2 (g ++ (b' ++ ')' :: r))
    obtain ⟨c1, _, _, c2⟩ := close_at e3 { q with bound := n :: q.bound } l3 (g ++ (b' ++ ')' :: r))
    have hf2 : Fresh { q with bound := n :: q.bound } (ns ++ namesL ts) := by
      simp only [namesL, List.cons_append, List.nodup_cons, List.mem_append, not_or] at hnd
      obtain ⟨⟨a1, a2, a3⟩, a4⟩ := hnd
      obtain ⟨d1, d2, d3⟩ := List.nodup_append.mp a4
      obtain ⟨d4, d5, d6⟩ := List.nodup_append.mp d2
      refine ⟨List.nodup_append.mpr ⟨d1, d5, fun a ha c hc => d3 a ha c (by simp [hc])⟩, fun y hy hb => ?_⟩
      simp only [List.mem_cons] at hb
      rw [List.mem_append] at hy
      rcases hb with rfl | hb
      · rcases hy with hy | hy
        · exact a1 hy
        · exact a3 hy
      · rcases e2.bound y hb with h | h
        · refine hf.2 y ?_ h
          rcases hy with hy | hy <;> simp [namesL, hy]
        · rcases hy with hy | hy
          · exact d3 y hy y (by simp [h]) rfl
          · exact d6 y h y hy rfl
    obtain ⟨vs', q', k', i1, i2, i3⟩ := letBinds_reads h2 (fun n' x' hm => hx n' x' (by simp [hm])) g2
      (p := { q with bound := n :: q.bound }) (e2.ph.trans hp) e2.keys hf2 (l3 + nls g) r
    refine ⟨t' :: vs', q', k + k' + 1, .cons e1 i1, ⟨i2.ph.trans e2.ph, i2.depth.trans e2.depth, i2.keys, fun y hy => ?_⟩,
      fun m hm ns0 vs0 => ?_⟩
    · rcases i2.bound y hy with h | h
      · simp only [List.mem_cons] at h
        rcases h with rfl | h
        · exact .inr (by simp)
        · rcases e2.bound y h with h | h
          · exact .inl h
          · exact .inr (by simp [namesL, h])
      · rw [List.mem_append] at h
        rcases h with h | h
        · exact .inr (by simp [h])
        · exact .inr (by simp [namesL, h])
    · obtain ⟨m, rfl⟩ : ∃ n, m = n + 1 := ⟨m - 1, by omega⟩
      rw [letBinds, if_neg g7, g5, k3]
      simp only [Res.ok_bind]
      rw [m2]
      simp only [Res.ok_bind, at_bound, if_neg hn]
      rw [e5 m (by omega)]
      simp only [Res.ok_bind]
      have : ({ q.at l3 (b3 ++ ')' :: (g ++ (b' ++ ')' :: r))) with bound := n :: (q.at l3 (b3 ++ ')' :: (g ++ (b' ++ ')' :: r)))).bound } : P) =
          { q with bound := n :: q.bound }.at l3 (b3 ++ ')' :: (g ++ (b' ++ ')' :: r))) := rfl
      rw [this, c1]
      simp only [Res.ok_bind]
      rw [at_gap _ _ _ g3, i3 m (by omega)]
      rw [show l3 + nls g + nls b' = l + nls b by omega]
      simp
      exact hn

/-- a word that starts with a parenthesis is never the start of scientific notation -/
theorem noSci_paren (acc : List Char) : startsSci ('(' :: acc) = false := by
  unfold startsSci
  simp only [Tok.splitE]
  rw [if_neg (by decide)]
  cases Tok.splitE acc with
  | none => rfl
  | some pr =>
    obtain ⟨m, e⟩ := pr
    cases e with
    | nil =>
      simp only [Option.map_some, List.isEmpty_cons, Bool.not_false, Bool.true_and]
      simp [Tok.isReal, Tok.realGo]
    | cons _ _ => rfl

theorem symGo_paren (file : Bool) (l : Nat) : ∀ (s acc : List Char), ')' ∈ s → ∃ w st, symGo file ('(' :: acc) l s = .ok ('(' :: w, st)
  | [], _, h => by simp at h
  | c :: s, acc, h => by
    simp only [symGo, noSci_paren, Bool.false_eq_true, if_false]
    split
    · exact ⟨_, _, rfl⟩
    · split
      · exact ⟨_, _, rfl⟩
      · split
        · exact ⟨_, _, rfl⟩
        · rename_i n1 n2 n3
          have : ')' ∈ s := by
            simp only [List.mem_cons] at h
            rcases h with rfl | h
            · simp at n3
            · exact h
          exact symGo_paren file l s (acc ++ [c]) this

end SMT.Parse
