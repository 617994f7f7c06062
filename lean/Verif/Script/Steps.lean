import Verif.Script.Spec
import Verif.Parse.Bound
import Verif.Parse.Viol
import Verif.Parse.Fuel

/-! # Reading the parts of a command (lemmas for C56, C57) -/

namespace SMT.Script
open SMT SMT.Text SMT.Lex SMT.Sorts SMT.Parse

set_option linter.unusedSimpArgs false
set_option linter.unusedVariables false

/-! ## Skipping -/

theorem skip_bal' {g : List Char} (h : Skip g) : Bal g := by
  induction h with
  | nil => exact .nil
  | ws h _ ih =>
    rename_i c s _
    refine .ch ?_ ?_ ?_ ?_ ?_ ih <;> rintro rfl <;> rcases h with h | h <;> revert h <;> decide
  | comment h1 h2 _ ih => exact .comment h1 h2 ih

theorem str_bal {b : List Char} (h : StrBody b) : ∀ {s : List Char}, Bal s → Bal ('"' :: (b ++ '"' :: s)) := by
  suffices H : ∀ (a : List Char) {s : List Char}, '"' ∉ a → Bal s → Bal ('"' :: (a ++ (b ++ '"' :: s))) from
    fun {s} hs => by simpa using H [] (by simp) hs
  induction h with
  | nil => intro a s ha hs; exact .str ha hs
  | ch hc _ ih =>
    intro a s ha hs
    rename_i c b _
    have := ih (a ++ [c]) (s := s) (by simp [ha, hc, Ne.symm hc]) hs
    simpa using this
  | quote _ ih =>
    intro a s ha hs
    have := ih [] (s := s) (by simp) hs
    have h2 := Bal.str ha this
    simpa using h2

theorem tok_bal {a : List Char} (h : Tok a) : Bal a := by
  cases h with
  | plain h1 h h3 =>
    clear h1 h3
    induction a with
    | nil => exact .nil
    | cons c w ih =>
      have := h c (by simp)
      simp only [isDelim, Bool.or_eq_false_iff, beq_eq_false_iff_ne] at this
      obtain ⟨⟨⟨⟨⟨⟨c1, c2⟩, c3⟩, c4⟩, c5⟩, c6⟩, c7⟩ := this
      exact .ch c6 c7 c3 c4 c5 (ih fun x hx => h x (by simp [hx]))
  | quoted h => exact .quoted h .nil
  | str h => exact str_bal h .nil

mutual
theorem lay_bal {file : Bool} : ∀ {x : Sexp} {tx : List Char}, Lay file x tx → Bal tx
  | _, _, .atom h => tok_bal h
  | _, _, .list hg hb => by
    have := Bal.par ((skip_bal' hg).append (layL_bal hb)) .nil
    simpa using this
theorem layL_bal {file : Bool} : ∀ {xs : List Sexp} {b : List Char}, LayL file xs b → Bal b
  | _, _, .nil => .nil
  | _, _, .cons hx hg hb _ => (lay_bal hx).append ((skip_bal' hg).append (layL_bal hb))
end

/-- the first character of the rest of a list -/
theorem rest_start {file : Bool} {xs : List Sexp} {b : List Char} (h : LayL file xs b) (r : List Char) :
    ∃ c w, b ++ ')' :: r = c :: w ∧ Start c := by
  cases h with
  | nil => exact ⟨_, _, rfl, start_rp⟩
  | cons h1 _ _ _ =>
    obtain ⟨c, w, rfl, hc, _, _⟩ := h1.head
    exact ⟨c, _, rfl, hc⟩

/-- the rest of a command is skipped -/
theorem skip_rest {cfg : Cfg} {xs : List Sexp} {b : List Char} (h : LayL cfg.file xs b) (p : P) (l : Nat) (r : List Char) :
    rpar (skipTo (p.at l (b ++ ')' :: r))) = .ok (p.at (l + nls b) r) := by
  obtain ⟨c, w, e, hc⟩ := rest_start h r
  have h1 := at_rest p l w hc
  have h2 := skip_command (p.at l (b ++ ')' :: r)).lex b r (layL_bal h) (by rw [e, h1])
  have h3 : (p.at l (b ++ ')' :: r)).lex.line = l := by rw [e, h1]
  unfold rpar skipTo
  simp only [h2.1, h3]
  rfl

/-! ## Keywords -/

/-- the keywords -/
def kwTable : List (List Char × KW) :=
  [(cs!":id", .id), (cs!":weight", .weight), (cs!":comp", .comp), (cs!":epsilon", .epsilon), (cs!":M", .M), (cs!":named", .named)]

theorem kw_at {cfg : Cfg} {a : List Char} {k : KW} {xs : List Sexp} {b : List Char} (h : LayL cfg.file (.atom a :: xs) b)
    (hk : (a, k) ∈ kwTable) (p : P) (l : Nat) (r : List Char) : ∃ b' l', LayL cfg.file xs b' ∧ l' + nls b' = l + nls b ∧
      keyword cfg (p.at l (b ++ ')' :: r)) = .ok (k, p.at l' (b' ++ ')' :: r)) := by
  obtain ⟨b', l', h1, h2, h3, h4, h5⟩ := word_at h p l r
  refine ⟨b', l', h1, h3, ?_⟩
  simp only [kwTable, List.mem_cons, List.not_mem_nil, or_false, Prod.mk.injEq] at hk
  unfold keyword
  rw [h5, h2]
  rcases hk with ⟨rfl, rfl⟩ | ⟨rfl, rfl⟩ | ⟨rfl, rfl⟩ | ⟨rfl, rfl⟩ | ⟨rfl, rfl⟩ | ⟨rfl, rfl⟩ <;> rfl

theorem kw_none {cfg : Cfg} {xs : List Sexp} {b : List Char} (h : LayL cfg.file xs b) (hx : ∀ x, xs.head? = some x → NotKw x)
    (p : P) (l : Nat) (r : List Char) : keyword cfg (p.at l (b ++ ')' :: r)) = .ok (.null, p.at l (b ++ ')' :: r)) := by
  have hc : (p.at l (b ++ ')' :: r)).cur ≠ some ':' := by
    cases xs with
    | nil => rw [(close_at h p l r).2.1]; decide
    | cons x xs =>
      cases x with
      | atom a =>
        obtain ⟨_, _, _, _, _, _, h5⟩ := word_at h p l r
        rw [h5]
        exact hx _ rfl a rfl
      | list ys =>
        obtain ⟨_, _, _, _, _, _, _, _, _, _, h8, _⟩ := part_at h p l r
        rw [h8.2 ⟨ys, rfl⟩]; decide
  unfold keyword
  rw [if_neg hc]

/-- an attribute that may be missing, and its symbol -/
theorem opt_at {cfg : Cfg} {a : List Char} {k want : KW} {v : Option (List Char)} {xs : List Sexp} {b : List Char}
    (h : LayL cfg.file (opt a v ++ xs) b) (hk : (a, want) ∈ kwTable) (hx : v = none → ∀ x, xs.head? = some x → NotKw x) (p : P) (l : Nat)
    (r : List Char) : ∃ b' l' k, LayL cfg.file xs b' ∧ l' + nls b' = l + nls b ∧ (∀ w, v = some w → w ≠ []) ∧
      ∃ p1, keyword cfg (p.at l (b ++ ')' :: r)) = .ok (k, p1) ∧ symAfter cfg want k p1 = .ok (v.getD [], p.at l' (b' ++ ')' :: r)) := by
  cases v with
  | none =>
    refine ⟨b, l, .null, h, rfl, by simp, _, kw_none h (hx rfl) p l r, ?_⟩
    unfold symAfter
    rw [if_neg]
    · rfl
    · rintro rfl
      revert hk
      simp [kwTable]
  | some w =>
    obtain ⟨b1, l1, h1, e1, k1⟩ := kw_at (xs := .atom w :: xs) h hk p l r
    obtain ⟨b2, l2, h2, e2, e3, ht, _⟩ := word_at h1 p l1 r
    refine ⟨b2, l2, want, h2, by omega, ?_, _, k1, ?_⟩
    · rintro _ ⟨⟩
      obtain ⟨c, u, rfl, _⟩ := ht.head
      simp
    · unfold symAfter
      rw [if_pos rfl, e2]
      rfl

/-! ## Terms and sorts -/

theorem term_at {cfg : Cfg} {cs : List Cmd} {x : Sexp} {e : T D} {xs : List Sexp} {b : List Char} {p : P} (hc : Clean cfg cs p)
    (h : Term (sorts cs) x e) (hl : LayL cfg.file (x :: xs) b) (l : Nat) (r : List Char) :
    ∃ (t : T Srt) (q : P) (k : Nat) (b' : List Char) (l' : Nat), Same t e ∧ Clean cfg cs q ∧ LayL cfg.file xs b' ∧
      l' + nls b' = l + nls b ∧ ∀ m, k ≤ m → expr cfg m (p.at l (b ++ ')' :: r)) = .ok (t, q.at l' (b' ++ ')' :: r)) := by
  have hcl := claim cfg hc.good (sizeOf x + 1) x e (by omega) h.reads
  cases hp : cfg.pres with
  | false =>
    obtain ⟨t, q, k, b', l', h1, h2, h3, h4, h5⟩ := claim_part hcl hl (p := p) hc.ph hc.keys ⟨h.names, by simp [hc.bound hp]⟩ l r
    refine ⟨t, q, k, b', l', h1, ⟨hc.good, h2.keys, by rw [h2.depth, hc.depth], by rw [h2.ph, hc.ph], fun _ => ?_⟩, h3, h4, h5⟩
    have := (scopes_closed (h5 k (Nat.le_refl _))).2 hp
    simp only [at_bound] at this
    rw [this, hc.bound hp]
  | true =>
    obtain ⟨t, q, k, b', l', h1, h2, h3, h4, h5⟩ := claim_part hcl hl (p := { p with bound := [] }) hc.ph hc.keys ⟨h.names, by simp⟩ l r
    have h6 := h5 k (Nat.le_refl _)
    obtain ⟨bb, h7⟩ := earlier_names_irrelevant hp h6 hc.depth p.bound
    refine ⟨t, { q with bound := bb }, k, b', l', h1, ⟨hc.good, h2.keys, by rw [show ({ q with bound := bb } : P).depth = q.depth from rfl, h2.depth]; exact hc.depth,
      by rw [show ({ q with bound := bb } : P).ph = q.ph from rfl, h2.ph]; exact hc.ph, fun h => by rw [hp] at h; cases h⟩, h3, h4, fun m hm => ?_⟩
    exact expr_fuel hm h7 (by simp)

theorem sort_at {cfg : Cfg} {cs : List Cmd} {x : Sexp} {d : D} {xs : List Sexp} {b : List Char} {p : P} (hc : Clean cfg cs p)
    (h : SortOf (sorts cs) x d) (hl : LayL cfg.file (x :: xs) b) (l : Nat) (r : List Char) :
    ∃ (t : Srt) (q : P) (k : Nat) (b' : List Char) (l' : Nat), Denotes t d ∧ sortOf t = some d ∧ Clean cfg cs q ∧ LayL cfg.file xs b' ∧
      l' + nls b' = l + nls b ∧ ∀ m, k ≤ m → parseSort cfg m (p.at l (b ++ ')' :: r)) = .ok (t, q.at l' (b' ++ ')' :: r)) := by
  obtain ⟨t, ks, k, b', l', h1, h2, h3, h4, h5⟩ := sort_part (sort_reads cfg hc.good h) hl p hc.keys l r
  exact ⟨t, { p with keys := ks }, k, b', l', h1, sortOf_denotes h1, ⟨hc.good, h2, hc.depth, hc.ph, hc.bound⟩, h3, h4, h5⟩

theorem sorts_at {cfg : Cfg} {cs : List Cmd} {xs : List Sexp} {ds : List D} (h : SortsOf (sorts cs) xs ds) : ∀ {b : List Char} {p : P},
    Clean cfg cs p → LayL cfg.file xs b → ∀ (l : Nat) (r : List Char), ∃ (ts : List Srt) (q : P) (k : Nat), ts.map sortOf = ds.map some ∧
      Clean cfg cs q ∧ ∀ m, k ≤ m → ∀ acc, sortList cfg m acc (p.at l (b ++ ')' :: r)) = .ok (acc ++ ts, q.at (l + nls b) (')' :: r)) := by
  induction h with
  | nil =>
    intro b p hc hl l r
    refine ⟨[], p, 1, rfl, hc, fun m hm acc => ?_⟩
    obtain ⟨m, rfl⟩ : ∃ n, m = n + 1 := ⟨m - 1, by omega⟩
    obtain ⟨_, h2, _, h4⟩ := close_at hl p l r
    cases hl.nil_inv
    rw [sortList, if_pos h2]
    simp
  | cons hx _ ih =>
    intro b p hc hl l r
    obtain ⟨t, q, k, b', l', _, h1, h2, h3, h4, h5⟩ := sort_at hc hx hl l r
    obtain ⟨ts, q2, k2, i1, i2, i3⟩ := ih h2 h3 l' r
    refine ⟨t :: ts, q2, k + k2 + 1, by simp [h1, i1], i2, fun m hm acc => ?_⟩
    obtain ⟨m, rfl⟩ : ∃ n, m = n + 1 := ⟨m - 1, by omega⟩
    obtain ⟨_, _, _, _, _, _, _, _, _, n1, _, _⟩ := part_at hl p l r
    rw [sortList, if_neg n1, h5 m (by omega)]
    simp only [Res.ok_bind]
    rw [i3 m (by omega), h4]
    simp

theorem vars_at {cfg : Cfg} {cs : List Cmd} {xs : List Sexp} {vs : List (List Char × D)} (h : Vars (sorts cs) xs vs) {b : List Char} {p : P}
    (hc : Clean cfg cs p) (hl : LayL cfg.file xs b) (l : Nat) (r : List Char) : ∃ (us : List (List Char × Srt)) (q : P) (k : Nat),
      (us.map fun v => (v.1, sortOf v.2)) = (vs.map fun v => (v.1, some v.2)) ∧ Clean cfg cs q ∧
      ∀ m, k ≤ m → quantVars cfg m [] (p.at l (b ++ ')' :: r)) = .ok (us, q.at (l + nls b) (')' :: r)) := by
  obtain ⟨us, ks, k, h1, h2, h3⟩ := quantVars_reads cfg hc.good h hl hc.keys l r
  exact ⟨us, { p with keys := ks }, k, h1, ⟨hc.good, h2, hc.depth, hc.ph, hc.bound⟩, fun m hm => by simpa using h3 m hm []⟩

/-- for different names the parameters of a function are read as the variables of a quantifier -/
theorem funParams_eq {cfg : Cfg} : ∀ (m : Nat) (acc us : List (List Char × Srt)) (p q : P), quantVars cfg m acc p = .ok (acc ++ us, q) →
    ((acc ++ us).map fun v => v.1).Nodup → funParams cfg m acc p = .ok (acc ++ us, q)
  | 0, _, _, _, _, h, _ => by cases h
  | m + 1, acc, us, p, q, h, hn => by
    rw [quantVars] at h
    rw [funParams]
    split
    · rename_i hc
      rw [if_pos hc] at h
      exact h
    · rename_i hc
      rw [if_neg hc] at h
      obtain ⟨p1, e1, h⟩ := bind_ok h
      obtain ⟨⟨x, p2⟩, e2, h⟩ := bind_ok h
      obtain ⟨⟨so, p3⟩, e3, h⟩ := bind_ok h
      obtain ⟨p4, e4, h⟩ := bind_ok h
      simp only [e1, e2, e3, e4, Res.ok_bind] at h ⊢
      obtain ⟨us', hu⟩ : ∃ us', acc ++ us = (acc ++ [(x, so)]) ++ us' := by
        clear hn
        generalize acc ++ us = res at h
        suffices H : ∀ (m : Nat) (acc res : List (List Char × Srt)) (p q : P), quantVars cfg m acc p = .ok (res, q) → ∃ us', res = acc ++ us' from
          H m _ _ _ _ h
        intro m
        induction m with
        | zero => intro _ _ _ _ h; cases h
        | succ m ih =>
          intro acc res p q h
          rw [quantVars] at h
          split at h
          · injection h with h; injection h with h _; exact ⟨[], by simp [h]⟩
          · obtain ⟨p1, e1, h⟩ := bind_ok h
            obtain ⟨⟨x, p2⟩, e2, h⟩ := bind_ok h
            obtain ⟨⟨so, p3⟩, e3, h⟩ := bind_ok h
            obtain ⟨p4, e4, h⟩ := bind_ok h
            obtain ⟨us', rfl⟩ := ih _ _ _ _ h
            exact ⟨_, List.append_assoc _ _ _⟩
      rw [hu] at h hn ⊢
      rw [if_neg]
      · exact funParams_eq m _ us' p4 q h hn
      · intro hx
        simp only [List.map_append, List.map_cons, List.map_nil, List.append_assoc] at hn
        rw [List.nodup_append] at hn
        exact hn.2.2 x hx x (by simp) rfl

end SMT.Script
