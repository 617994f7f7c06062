import Verif.Value.Props

/-!
# C64: string functions and conversions of values
-/

noncomputable section
namespace SMT.Value
open SMT SMT.Num SMT.Str

/-- a number that is an integer of the C type `int` -/
def IsInt (n : Number) (k : Int) : Prop := -2147483648 ≤ k ∧ k ≤ 2147483647 ∧ (n = .int k ∨ n = .real (.fin k))

theorem toInt_of {n : Number} {k : Int} (h : IsInt n k) : toInt (toInteger n) = .ok k := by
  obtain ⟨h0, h1, h2⟩ := h
  have : toInteger n = k := by
    rcases h2 with rfl | rfl
    · rfl
    · have hf : (k : ℚ).floor = k := Rat.floor_intCast k
      simp only [toInteger, hf]
      rw [if_pos (by norm_num)]
  rw [this, toInt, if_neg (by omega)]

/-- **C64.**  `replace` on three strings, the second not empty, ends with every occurrence replaced, from the left, the replacement
text not being searched again. -/
theorem replace_exact (u : Bool) (a o n : Value) (s p r : List Char) (ha : abs a = .str s) (ho : abs o = .str p) (hn : abs n = .str r)
    (hp : p ≠ []) : ∃ res w, IsReplaceAll p r s res ∧ abs w = .str res ∧ ∀ fuel, s.length ≤ fuel → replaceV u fuel a o n = some (.ok w) := by
  rcases a with ⟨s, na, A, x, t⟩; rcases o with ⟨p, no, A', x', t'⟩; rcases n with ⟨r, nn, A'', x'', t''⟩
  cases t <;> simp only [abs, reduceCtorEq, AVal.str.injEq] at ha
  cases t' <;> simp only [abs, reduceCtorEq, AVal.str.injEq] at ho
  cases t'' <;> simp only [abs, reduceCtorEq, AVal.str.injEq] at hn
  subst ha ho hn
  obtain ⟨res, h1, h2⟩ := replLoop_spec p r hp s.length s [] (Nat.le_refl _)
  refine ⟨res, ofStr u res, h2, rfl, fun fuel hf => ?_⟩
  have key : ∀ (m : Nat) (k : Nat) (z : List Char) (q : Option Nat) (y : List Char), replLoop p r m z q = some y → m ≤ k →
      replLoop p r k z q = some y := by
    intro m
    induction m with
    | zero =>
      intro k z q y h _
      cases q with
      | none => cases k <;> exact h
      | some q => cases h
    | succ m ih =>
      intro k z q y h hk
      cases q with
      | none => cases k <;> exact h
      | some q =>
        obtain ⟨k, rfl⟩ : ∃ j, k = j + 1 := ⟨k - 1, by omega⟩
        rw [replLoop] at h ⊢
        exact ih k _ _ _ h (by omega)
  have := key _ fuel _ _ _ h1 hf
  simp only [List.nil_append, List.length_nil] at this
  simp [replaceV, this]

/-- **C64, where it fails.**  With an empty second string `replace` never returns, whatever the other strings are. -/
theorem replace_violated (u : Bool) (fuel : Nat) (s r : List Char) : replaceV u fuel (ofStr u s) (ofStr u []) (ofStr u r) = none := by
  have h : findFrom s [] 0 = some 0 := by
    have : ∀ l : List Char, find [] l = some 0 := by intro l; cases l <;> simp [find]
    simp [findFrom, this]
  simp [replaceV, ofStr, ofTy, h, replLoop_empty r fuel s 0 (by omega)]

/-- **C64.**  `substr(start, length)` for a start inside the string: the text from `start` of at most `length` characters, all of
the rest if `length` is negative. -/
theorem substr_exact_partial (u : Bool) (a i n : Value) (s : List Char) (ni nn : Number) (k m : Int) (ha : abs a = .str s)
    (hi : abs i = .num ni) (hn : abs n = .num nn) (hk : IsInt ni k) (hm : IsInt nn m) (h0 : 0 ≤ k) (h1 : k < s.length) :
    ∃ w pre res post, substrV u a i n = .ok w ∧ abs w = .str res ∧ s = pre ++ res ++ post ∧ pre.length = k.toNat ∧
      (0 ≤ m → (res.length : Int) = min m (s.length - k)) ∧ (m < 0 → post = []) := by
  rcases a with ⟨s, na, A, x, t⟩; rcases i with ⟨p, no, A', x', t'⟩; rcases n with ⟨r, nq, A'', x'', t''⟩
  cases t <;> simp only [abs, reduceCtorEq, AVal.str.injEq] at ha
  cases t' <;> simp only [abs, reduceCtorEq, AVal.num.injEq] at hi
  cases t'' <;> simp only [abs, reduceCtorEq, AVal.num.injEq] at hn
  subst ha hi hn
  have e : substrV u ⟨s, na, A, x, .string⟩ ⟨p, no, A', x', .number⟩ ⟨r, nq, A'', x'', .number⟩ =
      .ok (ofStr u ((s.drop k.toNat).take (if m < 0 then s.length else m.toNat))) := by
    simp only [substrV, and_self, if_true, toInt_of hk, toInt_of hm, Res.bind]
    rw [if_neg (by omega)]
  refine ⟨_, s.take k.toNat, (s.drop k.toNat).take (if m < 0 then s.length else m.toNat), (s.drop k.toNat).drop (if m < 0 then s.length else m.toNat), e, rfl, ?_, ?_, ?_, ?_⟩
  · rw [List.append_assoc, List.take_append_drop, List.take_append_drop]
  · rw [List.length_take]; omega
  · intro h
    rw [if_neg (by omega), List.length_take, List.length_drop]; omega
  · intro h
    rw [if_pos h, List.drop_eq_nil_of_le (by rw [List.length_drop]; omega)]

/-- **C64, where it fails.**  `substr` at the end of the string, or of the empty string, throws instead of giving the empty text. -/
theorem substr_violated (u : Bool) (s : List Char) (h : s.length ≤ 2147483647) (n : Number) (m : Int) (hm : IsInt n m) :
    substrV u (ofStr u s) (ofNum u (.int s.length)) (ofNum u n) = .throw := by
  have hk : IsInt (.int (s.length : Int)) s.length := ⟨by omega, by omega, .inl rfl⟩
  simp only [substrV, ofStr, ofNum, ofTy, and_self, if_true, toInt_of hk, toInt_of hm, Res.bind]
  simp

/-- **C64.**  `repeatStr(k)` is `k` copies, none for a negative `k`; `concatStr` and `+` put the texts together. -/
theorem repeat_exact (u : Bool) (a n : Value) (s : List Char) (nn : Number) (k : Int) (ha : abs a = .str s) (hn : abs n = .num nn)
    (hk : IsInt nn k) : ∃ w, repeatStr u a n = .ok w ∧ abs w = .str (List.replicate k.toNat s).flatten := by
  rcases a with ⟨s, na, A, x, t⟩; rcases n with ⟨r, nq, A'', x'', t''⟩
  cases t <;> simp only [abs, reduceCtorEq, AVal.str.injEq] at ha
  cases t'' <;> simp only [abs, reduceCtorEq, AVal.num.injEq] at hn
  subst ha hn
  refine ⟨ofStr u (copies s k.toNat), by simp [repeatStr, toInt_of hk, Res.bind], ?_⟩
  have : ∀ j, copies s j = (List.replicate j s).flatten := by
    intro j
    induction j with
    | zero => rfl
    | succ j ih => rw [copies, ih, List.replicate_succ']; simp
  rw [this]; rfl

/-- **C64.**  `concatStr` of two strings; other types throw. -/
theorem concat_exact (u : Bool) (a b : Value) :
    (∀ s t, abs a = .str s → abs b = .str t → ∃ w, concatStr u a b = .ok w ∧ abs w = .str (s ++ t)) ∧
    (a.ty ≠ .string ∨ b.ty ≠ .string → concatStr u a b = .throw) := by
  rcases a with ⟨s, na, A, x, t⟩; rcases b with ⟨p, no, A', x', t'⟩
  refine ⟨fun q q' ha hb => ?_, fun h => ?_⟩
  · cases t <;> simp only [abs, reduceCtorEq, AVal.str.injEq] at ha
    cases t' <;> simp only [abs, reduceCtorEq, AVal.str.injEq] at hb
    subst ha hb
    exact ⟨ofStr u (s ++ p), by simp [concatStr], rfl⟩
  · rw [concatStr, if_neg (fun q => by rcases h with h | h; exact h q.1; exact h q.2)]

theorem insC_perm (c : Char) (l : List Char) : (insC c l).Perm (c :: l) := by
  induction l with
  | nil => exact .refl _
  | cons d l ih =>
    rw [insC]
    split
    · exact .refl _
    · exact (ih.cons d).trans (.swap c d l)

theorem insC_sorted (c : Char) (l : List Char) (h : l.Pairwise fun a b => sgn a ≤ sgn b) :
    (insC c l).Pairwise fun a b => sgn a ≤ sgn b := by
  induction l with
  | nil => simp [insC]
  | cons d l ih =>
    rw [List.pairwise_cons] at h
    rw [insC]
    split
    · rename_i hc
      rw [List.pairwise_cons, List.pairwise_cons]
      refine ⟨?_, h⟩
      intro x hx
      rcases List.mem_cons.mp hx with rfl | hx
      · exact hc
      · exact Int.le_trans hc (h.1 x hx)
    · rename_i hc
      rw [List.pairwise_cons]
      refine ⟨?_, ih h.2⟩
      intro x hx
      rcases List.mem_cons.mp ((insC_perm c l).mem_iff.mp hx) with rfl | hx
      · omega
      · exact h.1 x hx

/-- **C64.**  `sortStr` returns the same characters in the order of their (signed) codes. -/
theorem sort_exact (u : Bool) (a : Value) (s : List Char) (ha : abs a = .str s) :
    ∃ w r, sortStr u a = .ok w ∧ abs w = .str r ∧ r.Perm s ∧ r.Pairwise fun x y => sgn x ≤ sgn y := by
  rcases a with ⟨s, na, A, x, t⟩
  cases t <;> simp only [abs, reduceCtorEq, AVal.str.injEq] at ha
  subst ha
  refine ⟨ofStr u (s.foldr insC []), s.foldr insC [], by simp [sortStr], rfl, ?_, ?_⟩
  · induction s with
    | nil => exact .refl _
    | cons c s ih => exact (insC_perm c _).trans (ih.cons c)
  · induction s with
    | nil => simp
    | cons c s ih => exact insC_sorted c _ ih

/-- **C64.**  `reverse`: the characters in reverse order; twice gives the string back. -/
theorem reverse_exact (u : Bool) (a : Value) (s : List Char) (ha : abs a = .str s) :
    ∃ w w', reverseV u a = .ok w ∧ abs w = .str s.reverse ∧ reverseV u w = .ok w' ∧ abs w' = .str s := by
  rcases a with ⟨s, na, A, x, t⟩
  cases t <;> simp only [abs, reduceCtorEq, AVal.str.injEq] at ha
  subst ha
  exact ⟨ofStr u s.reverse, ofStr u s.reverse.reverse, by simp [reverseV], rfl, by simp [reverseV, ofStr, ofTy], by simp [abs, ofStr, ofTy]⟩

theorem uniq_go (s : List Char) (r : List Char) (h : r.Nodup) :
    let z := s.foldl (fun r c => if c ∈ r then r else r ++ [c]) r
    z.Nodup ∧ (∀ c, c ∈ z ↔ c ∈ r ∨ c ∈ s) ∧ ∃ y, z = r ++ y ∧ y.Sublist s := by
  induction s generalizing r with
  | nil => exact ⟨h, fun c => by simp, [], by simp, .slnil⟩
  | cons d s ih =>
    simp only [List.foldl_cons]
    by_cases hd : d ∈ r
    · rw [if_pos hd]
      obtain ⟨h1, h2, y, h3, h4⟩ := ih r h
      refine ⟨h1, fun c => ?_, y, h3, h4.cons d⟩
      rw [h2, List.mem_cons]
      constructor
      · rintro (q | q)
        · exact .inl q
        · exact .inr (.inr q)
      · rintro (q | rfl | q)
        · exact .inl q
        · exact .inl hd
        · exact .inr q
    · rw [if_neg hd]
      have hn : (r ++ [d]).Nodup := by
        rw [List.nodup_append]
        exact ⟨h, by simp, fun a ha b hb => by simp only [List.mem_singleton] at hb; subst hb; exact fun e => hd (e ▸ ha)⟩
      obtain ⟨h1, h2, y, h3, h4⟩ := ih (r ++ [d]) hn
      refine ⟨h1, fun c => ?_, d :: y, by rw [h3]; simp, h4.cons_cons d⟩
      rw [h2]; simp [or_assoc]

/-- **C64.**  `unique` keeps, in their order, one of each character of the string. -/
theorem unique_exact (u : Bool) (a : Value) (s : List Char) (ha : abs a = .str s) :
    ∃ w r, uniqueV u a = .ok w ∧ abs w = .str r ∧ r.Nodup ∧ (∀ c, c ∈ r ↔ c ∈ s) ∧ r.Sublist s := by
  rcases a with ⟨s, na, A, x, t⟩
  cases t <;> simp only [abs, reduceCtorEq, AVal.str.injEq] at ha
  subst ha
  obtain ⟨h1, h2, y, h3, h4⟩ := uniq_go s [] (by simp)
  refine ⟨ofStr u (uniq s), uniq s, by simp [uniqueV], rfl, h1, fun c => by have := h2 c; simp only [List.not_mem_nil, false_or] at this; exact this, ?_⟩
  have : uniq s = y := by unfold uniq; rw [h3]; rfl
  rw [this]; exact h4

theorem ltrim_go (s : List Char) (hs : ∀ c ∈ s, c.toNat < 128) :
    ∃ pre r, ltrimS s = .ok r ∧ s = pre ++ r ∧ (∀ c ∈ pre, isSpace c = true) ∧ (∀ c, r.head? = some c → isSpace c = false) := by
  induction s with
  | nil => exact ⟨[], [], rfl, rfl, by simp, by simp⟩
  | cons c s ih =>
    rw [ltrimS, if_neg (by have := hs c (by simp); omega)]
    split
    · rename_i hc
      obtain ⟨pre, r, h1, h2, h3, h4⟩ := ih (fun d hd => hs d (List.mem_cons_of_mem _ hd))
      refine ⟨c :: pre, r, h1, by rw [h2]; rfl, ?_, h4⟩
      intro d hd
      rcases List.mem_cons.mp hd with rfl | hd
      · exact hc
      · exact h3 d hd
    · rename_i hc
      exact ⟨[], c :: s, rfl, rfl, by simp, by simpa using hc⟩

theorem rtrim_go (s : List Char) (hs : ∀ c ∈ s, c.toNat < 128) :
    ∃ post r, rtrimS s = .ok r ∧ s = r ++ post ∧ (∀ c ∈ post, isSpace c = true) ∧ (∀ c, r.getLast? = some c → isSpace c = false) := by
  obtain ⟨pre, r, h1, h2, h3, h4⟩ := ltrim_go s.reverse (fun c hc => hs c (List.mem_reverse.mp hc))
  refine ⟨pre.reverse, r.reverse, by rw [rtrimS, h1]; rfl, ?_, fun c hc => h3 c (List.mem_reverse.mp hc), ?_⟩
  · rw [← List.reverse_append, ← h2, List.reverse_reverse]
  · intro c hc
    rw [List.getLast?_reverse] at hc
    exact h4 c hc

/-- **C64.**  `ltrim`, `rtrim` and `trim` of an ASCII string cut white space from the ends, and all of it. -/
theorem trim_exact_partial (u : Bool) (a : Value) (s : List Char) (ha : abs a = .str s) (hs : ∀ c ∈ s, c.toNat < 128) :
    (∃ w pre r, ltrimV u a = .ok w ∧ abs w = .str r ∧ s = pre ++ r ∧ (∀ c ∈ pre, isSpace c = true) ∧
      (∀ c, r.head? = some c → isSpace c = false)) ∧
    (∃ w post r, rtrimV u a = .ok w ∧ abs w = .str r ∧ s = r ++ post ∧ (∀ c ∈ post, isSpace c = true) ∧
      (∀ c, r.getLast? = some c → isSpace c = false)) ∧
    (∃ w pre r post, trimV u a = .ok w ∧ abs w = .str r ∧ s = pre ++ r ++ post ∧ (∀ c ∈ pre ++ post, isSpace c = true) ∧
      (∀ c, r.head? = some c ∨ r.getLast? = some c → isSpace c = false)) := by
  rcases a with ⟨s, na, A, x, t⟩
  cases t <;> simp only [abs, reduceCtorEq, AVal.str.injEq] at ha
  subst ha
  obtain ⟨pre, r, h1, h2, h3, h4⟩ := ltrim_go s hs
  obtain ⟨post, r', k1, k2, k3, k4⟩ := rtrim_go s hs
  obtain ⟨post', r'', l1, l2, l3, l4⟩ := rtrim_go r (fun c hc => hs c (by rw [h2]; simp [hc]))
  refine ⟨⟨ofStr u r, pre, r, by simp [ltrimV, h1, Res.bind], rfl, h2, h3, h4⟩, ⟨ofStr u r', post, r', by simp [rtrimV, k1, Res.bind], rfl, k2, k3, k4⟩,
    ⟨ofStr u r'', pre, r'', post', by simp [trimV, h1, l1, Res.bind], rfl, by rw [h2, l2]; simp, ?_, ?_⟩⟩
  · intro c hc
    rcases List.mem_append.mp hc with hc | hc
    · exact h3 c hc
    · exact l3 c hc
  · rintro c (hc | hc)
    · refine h4 c ?_
      rw [l2]
      cases r'' with
      | nil => cases hc
      | cons d r'' => exact hc
    · exact l4 c hc

/-- **C64, where it fails.**  `trim` of a string that starts with a byte above 127 (any text with an accented first letter) is
undefined behaviour. -/
theorem trim_violated (u : Bool) (c : Char) (s : List Char) (h : 128 ≤ c.toNat) : trimV u (ofStr u (c :: s)) = .ub := by
  simp [trimV, ofStr, ofTy, ltrimS, h, Res.bind]

/-- **C64.**  `toLower` and `toUpper` keep the length and change letters of the one case into the other, nothing else. -/
theorem case_exact (u : Bool) (a : Value) (s : List Char) (ha : abs a = .str s) :
    (∃ w r, toLowerV u a = .ok w ∧ abs w = .str r ∧ r.length = s.length ∧
      ∀ (i : Nat) (c d : Char), s[i]? = some c → r[i]? = some d →
        if 65 ≤ c.toNat ∧ c.toNat ≤ 90 then d.toNat = c.toNat + 32 else d = c) ∧
    (∃ w r, toUpperV u a = .ok w ∧ abs w = .str r ∧ r.length = s.length ∧
      ∀ (i : Nat) (c d : Char), s[i]? = some c → r[i]? = some d →
        if 97 ≤ c.toNat ∧ c.toNat ≤ 122 then d.toNat + 32 = c.toNat else d = c) := by
  rcases a with ⟨s, na, A, x, t⟩
  cases t <;> simp only [abs, reduceCtorEq, AVal.str.injEq] at ha
  subst ha
  refine ⟨⟨ofStr u (s.map lower), s.map lower, by simp [toLowerV], rfl, by simp, ?_⟩,
    ⟨ofStr u (s.map upper), s.map upper, by simp [toUpperV], rfl, by simp, ?_⟩⟩
  · intro i c d hc hd
    rw [List.getElem?_map, hc, Option.map_some] at hd
    cases hd
    unfold lower
    split
    · rename_i h; rw [ofNat_toNat' (by omega)]
    · rfl
  · intro i c d hc hd
    rw [List.getElem?_map, hc, Option.map_some] at hd
    cases hd
    unfold upper
    split
    · rename_i h; rw [ofNat_toNat' (by omega)]; omega
    · rfl

/-! ### conversions -/

/-- **C64.**  Booleans and numbers: `toNumber` of a Boolean is 0 or 1 and `toBoolean` of that gives it back; `toBoolean` of a number says
whether it differs from 0, of a string whether it is `true` or `1`; values of the target type are returned as they are. -/
theorem convert_exact (F : Fmt) (u : Bool) (p : List Char → Option Number) (a : Value) :
    (∀ b, abs a = .bool b → ∃ w w', toNumberV u p a = .ok w ∧ abs w = .num (.int (if b then 1 else 0)) ∧
      toBooleanV F w = .ok w' ∧ abs w' = .bool b ∧ ∃ x, toBooleanV F a = .ok x ∧ abs x = .bool b) ∧
    (∀ n, abs a = .num n → n.Ok F → F.r 0 = 0 → ∃ w b, toBooleanV F a = .ok w ∧ abs w = .bool b ∧ (b = true ↔ n.w ≠ fin 0) ∧
      ∃ x, toNumberV u p a = .ok x ∧ abs x = .num n) ∧
    (∀ s, abs a = .str s → ∃ w b, toBooleanV F a = .ok w ∧ abs w = .bool b ∧ (b = true ↔ s = "true".toList ∨ s = "1".toList)) ∧
    ((abs a).ty = .interval ∨ a.ty = .unknown → toNumberV u p a = .throw ∧ toBooleanV F a = .throw) := by
  rcases a with ⟨s, n, A, x, t⟩
  refine ⟨fun b h => ?_, fun m h hok h0 => ?_, fun q h => ?_, fun h => ?_⟩
  · cases t <;> simp only [abs, reduceCtorEq, AVal.bool.injEq] at h
    subst h
    refine ⟨_, _, rfl, rfl, rfl, ?_, _, rfl, rfl⟩
    cases x <;> simp [abs, ofBool, ofTy, ofNum, Number.ne, Number.eq]
  · cases t <;> simp only [abs, reduceCtorEq, AVal.num.injEq] at h
    subst h
    refine ⟨_, _, rfl, rfl, ?_, _, rfl, rfl⟩
    have hz : (Number.int 0).Ok F := by simp [Number.Ok, h0]
    show Number.ne F n (.int 0) = true ↔ n.w ≠ fin 0
    rw [Number.ne, Bool.not_eq_true', ← Bool.not_eq_true, SMT.Num.eq_iff hok hz]
    simp [Number.w]
  · cases t <;> simp only [abs, reduceCtorEq, AVal.str.injEq] at h
    subst h
    exact ⟨_, _, rfl, rfl, by simp [ofBool, ofTy]⟩
  · cases t <;> simp [abs, AVal.ty] at h <;> exact ⟨rfl, rfl⟩

example : ∃ res, IsReplaceAll ['a'] ['b', 'a'] ['a', 'c', 'a'] res ∧
    ∀ u, replaceV u 3 (ofStr u ['a', 'c', 'a']) (ofStr u ['a']) (ofStr u ['b', 'a']) = some (.ok (ofStr u res)) := by
  refine ⟨['b', 'a', 'c', 'b', 'a'], ?_, fun u => rfl⟩
  obtain ⟨res, w, h1, h2, h3⟩ := replace_exact true (ofStr true ['a', 'c', 'a']) (ofStr true ['a']) (ofStr true ['b', 'a']) ['a', 'c', 'a'] ['a'] ['b', 'a'] rfl rfl rfl (by simp)
  have := h3 3 (by simp)
  have e : replaceV true 3 (ofStr true ['a', 'c', 'a']) (ofStr true ['a']) (ofStr true ['b', 'a']) =
    some (.ok (ofStr true ['b', 'a', 'c', 'b', 'a'])) := rfl
  rw [e] at this
  simp only [Option.some.injEq, Res.ok.injEq] at this
  rw [← this] at h2
  cases h2
  exact h1

example (u : Bool) : trimV u (ofStr u [' ', 'a', ' ', 'b', '\n']) = .ok (ofStr u ['a', ' ', 'b']) ∧
    uniqueV u (ofStr u ['b', 'a', 'b']) = .ok (ofStr u ['b', 'a']) ∧ IsInt (.real (.fin (3 : Int))) 3 := by
  refine ⟨rfl, rfl, by norm_num, by norm_num, .inr rfl⟩

end SMT.Value
