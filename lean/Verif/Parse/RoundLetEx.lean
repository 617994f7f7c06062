import Verif.Parse.RoundLet

/-! # Lets that are kept: a tree without lets, and a worked case (C41) -/

namespace SMT.Parse
open SMT SMT.Text SMT.Lex SMT.Kinds SMT.Sorts SMT.Print

set_option linter.unusedSimpArgs false
set_option linter.unusedVariables false

/-- the variables of earlier lets do not matter to an outermost let: it gets a new number -/
theorem counter_of_outermost {I : Ctors} {sc : Names} {c : Nat} {xs ys : Names} {ns : List (List Char)} {cs : List (T (Option D))} :
    buildP I false sc ⟨c, xs⟩ (.mk (.lets ns) cs) = buildP I false sc ⟨c, ys⟩ (.mk (.lets ns) cs) := by
  unfold buildP
  simp only [buildC, LSt.enter, Bool.false_eq_true, if_false]

/-! ## The variables of a let are not seen behind it -/

/-- the same node, and the same number of lets read -/
def Agree {α : Type} (A B : Res (α × LSt)) : Prop :=
  A.bind (fun r => .ok (r.1, r.2.counter)) = B.bind (fun r => .ok (r.1, r.2.counter))

theorem Agree.bind {α β : Type} {A B : Res (α × LSt)} {f g : α × LSt → Res (β × LSt)} (h : Agree A B)
    (hf : ∀ a s s', s.counter = s'.counter → Agree (f (a, s)) (g (a, s'))) : Agree (A >>= f) (B >>= g) := by
  unfold Agree at h
  cases A <;> cases B <;> simp only [Res.bind, Res.ok.injEq, reduceCtorEq, Prod.mk.injEq] at h
  · rename_i x y
    obtain ⟨a, s⟩ := x
    obtain ⟨b, s'⟩ := y
    obtain ⟨rfl, h2⟩ := h
    exact hf _ _ _ h2
  all_goals rfl

theorem Agree.same {α β : Type} (A : Res α) {f g : α → Res (β × LSt)} (hf : ∀ a, Agree (f a) (g a)) : Agree (A >>= f) (A >>= g) := by
  cases A
  · exact hf _
  all_goals rfl

theorem Agree.ret {α : Type} {a : α} {s s' : LSt} (h : s.counter = s'.counter) : Agree (Res.ok (a, s)) (Res.ok (a, s')) := by
  simp [Agree, Res.bind, h]

mutual
theorem agreeC (I : Ctors) (sc : Names) (s s' : LSt) (h : s.counter = s'.counter) :
    (t : T (Option D)) → Agree (buildC I false sc s t) (buildC I false sc s' t)
  | .mk tag cs => by
    have ih := fun sc => agreeL I sc s s' h cs
    cases tag with
    | sym x ph => simp only [buildC, LSt.seen, Bool.false_eq_true, if_false]; exact .same _ fun a => .ret h
    | app op n =>
      simp only [buildC]
      exact (ih sc).bind fun xs a a' e => .same _ fun r => .ret e
    | quant hd vs =>
      simp only [buildC]
      refine (ih _).bind fun xs a a' e => ?_
      dsimp only
      split
      · exact .same _ fun r => .ret e
      · rfl
    | lets ns => simp only [buildC, LSt.enter, Bool.false_eq_true, if_false, h]; rfl
    | bv n w => simp only [buildC]; exact .same _ fun a => .ret h
    | fpc a b c => simp only [buildC]; exact .same _ fun a => .ret h
    | fp => simp only [buildC]; exact (ih sc).bind fun xs a a' e => .same _ fun r => .ret e
    | constArr a =>
      simp only [buildC]
      refine (ih _).bind fun xs a a' e => ?_
      dsimp only
      split
      · exact .same _ fun r => .ret e
      · rfl
    | asArray a => simp only [buildC]; exact .same _ fun a => .ret h
    | named a =>
      simp only [buildC]
      refine (ih _).bind fun xs a a' e => ?_
      dsimp only
      split
      · exact .ret e
      · rfl
    | rootObj i =>
      simp only [buildC]
      refine (ih _).bind fun xs a a' e => ?_
      dsimp only
      split
      · exact .same _ fun r => .ret e
      · rfl
    | rootInt => simp only [buildC]; exact (ih sc).bind fun xs a a' e => .same _ fun r => .ret e
    | ran => simp only [buildC]; exact (ih sc).bind fun xs a a' e => .same _ fun r => .ret e
theorem agreeL (I : Ctors) (sc : Names) (s s' : LSt) (h : s.counter = s'.counter) :
    (ts : List (T (Option D))) → Agree (buildPL I false sc s ts) (buildPL I false sc s' ts)
  | [] => by simp only [buildPL]; exact .ret h
  | t :: ts => by
    simp only [buildPL]
    exact (agreeC I sc s s' h t).bind fun x a a' e => (agreeL I sc a a' e ts).bind fun xs b b' e' => .ret e'
end

/-- **outside lets the variables of the lets read before are not seen**: whatever they are, the same node is made -/
theorem let_variables_local (I : Ctors) (sc : Names) (c : Nat) (xs ys : Names) (t : T (Option D)) :
    (buildP I false sc ⟨c, xs⟩ t).bind (fun r => .ok (r.1, r.2.counter)) = (buildP I false sc ⟨c, ys⟩ t).bind (fun r => .ok (r.1, r.2.counter)) := by
  have := agreeC I sc ⟨c, xs⟩ ⟨c, ys⟩ rfl t
  exact Agree.bind this fun x a a' e => .ret e

/-! ## A worked case -/

/-- the variables of the case, which is the third let of a script -/
def lx : N := letVar 3 cs!"x" (.mk .UF_APPLY cs!"f" INT_SORT [.mk .VAR cs!"y" INT_SORT []])
/-- `z`, with `x` in its value -/
def lz : N := letVar 3 cs!"z" (.mk .LT cs!"<" BOOL_SORT [lx, .mk .CONST cs!"-5" INT_SORT []])
/-- the variable of the second level -/
def lw : N := letVar 3 cs!"w" (.mk .NOT cs!"not" BOOL_SORT [lz])
/-- the variable of a let inside the body -/
def lv : N := letVar 3 cs!"v" (.mk .OR cs!"or" BOOL_SORT [lw, lz])
/-- a list of variables -/
def llist (v : N) (vs : List N) : N := .mk .LET_BIND_VAR_LIST [] v.sort (v :: vs)
/-- `(let ((x (f y)) (z (< x (- 5)))) (let ((w (not z))) (and w (let ((v (or w z))) v))))` -/
def rl : N :=
  .mk .LET_CHAIN [] BOOL_SORT [llist lx [lz], llist lw [], .mk .AND cs!"and" BOOL_SORT [lw, .mk .LET_CHAIN [] BOOL_SORT [llist lv [], lv]]]

example : flat (sexpr rl) = cs!"(let ((x (f y)) (z (< x (- 5)))) (let ((w (not z))) (and w (let ((v (or w z))) v))))" := by decide +kernel

theorem wf_leaf {k : K} {name : List Char} {s : Srt} (h1 : arity k 0 = true) (h2 : bindShape k []) (h3 : operands k [] = []) :
    WF (.mk k name s []) := .mk h1 h2 (by rw [h3]; simp)

theorem lx_wf : WF lx := by
  refine .mk rfl trivial ?_
  intro c hc
  simp only [operands, List.mem_cons, List.not_mem_nil, or_false] at hc
  subst hc
  refine .mk rfl trivial ?_
  intro c hc
  simp only [operands, List.mem_cons, List.not_mem_nil, or_false] at hc
  subst hc
  exact wf_leaf rfl trivial rfl

theorem rl_wf : WF rl := by
  have hx := lx_wf
  have hx' : WF (.mk .UF_APPLY cs!"f" INT_SORT [.mk .VAR cs!"y" INT_SORT []]) := by
    cases lx_wf with
    | mk _ _ h => exact h _ (by simp [operands])
  have hz' : WF (.mk .LT cs!"<" BOOL_SORT [lx, .mk .CONST cs!"-5" INT_SORT []]) := by
    refine .mk rfl trivial ?_
    intro c hc
    simp only [operands, List.mem_cons, List.not_mem_nil, or_false] at hc
    rcases hc with rfl | rfl
    · exact hx
    · exact wf_leaf rfl trivial rfl
  have bind : ∀ {x : List Char} {v : N}, WF v → WF (letVar 3 x v) := by
    intro x v h
    refine .mk rfl trivial ?_
    intro c hc
    simp only [operands, List.mem_cons, List.not_mem_nil, or_false] at hc
    subst hc
    exact h
  have hz : WF lz := bind hz'
  have hw' : WF (.mk .NOT cs!"not" BOOL_SORT [lz]) := by
    refine .mk rfl trivial ?_
    intro c hc
    simp only [operands, List.mem_cons, List.not_mem_nil, or_false] at hc
    subst hc
    exact hz
  have hw : WF lw := bind hw'
  have hv' : WF (.mk .OR cs!"or" BOOL_SORT [lw, lz]) := by
    refine .mk rfl trivial ?_
    intro c hc
    simp only [operands, List.mem_cons, List.not_mem_nil, or_false] at hc
    rcases hc with rfl | rfl
    · exact hw
    · exact hz
  have hv : WF lv := bind hv'
  have one : ∀ {ls : List N}, (∀ v ∈ ls, ∃ x w, v = letVar 3 x w) → oneValue ls := by
    intro ls h v hv
    obtain ⟨x, w, rfl⟩ := h v hv
    exact ⟨w, rfl⟩
  have inner : WF (.mk .LET_CHAIN [] BOOL_SORT [llist lv [], lv]) := by
    refine .mk rfl ?_ ?_
    · intro l hl
      simp only [List.dropLast, List.mem_cons, List.not_mem_nil, or_false] at hl
      subst hl
      exact one fun v hv => by
        have : v = lv := by simpa [llist, N.children] using hv
        exact ⟨_, _, this⟩
    · intro c hc
      have : c = lv ∨ c = .mk .OR cs!"or" BOOL_SORT [lw, lz] := by
        simpa [operands, llist, lv, letVar, N.children] using hc
      rcases this with rfl | rfl
      · exact hv
      · exact hv'
  refine .mk rfl ?_ ?_
  · intro l hl
    simp only [List.dropLast, List.mem_cons, List.not_mem_nil, or_false] at hl
    rcases hl with rfl | rfl
    · exact one fun v hv => by
        have : v = lx ∨ v = lz := by simpa [llist, N.children] using hv
        rcases this with rfl | rfl <;> exact ⟨_, _, rfl⟩
    · exact one fun v hv => by
        have : v = lw := by simpa [llist, N.children] using hv
        exact ⟨_, _, this⟩
  · intro c hc
    have : c = .mk .AND cs!"and" BOOL_SORT [lw, .mk .LET_CHAIN [] BOOL_SORT [llist lv [], lv]] ∨
        c = .mk .UF_APPLY cs!"f" INT_SORT [.mk .VAR cs!"y" INT_SORT []] ∨ c = .mk .LT cs!"<" BOOL_SORT [lx, .mk .CONST cs!"-5" INT_SORT []] ∨
        c = .mk .NOT cs!"not" BOOL_SORT [lz] := by
      simpa [operands, llist, lx, lz, lw, letVar, N.children] using hc
    rcases this with rfl | rfl | rfl | rfl
    · refine .mk rfl trivial ?_
      intro c hc
      simp only [operands, List.mem_cons, List.not_mem_nil, or_false] at hc
      rcases hc with rfl | rfl
      · exact hw
      · exact inner
    · exact hx'
    · exact hz'
    · exact hw'

/-- the state after each variable -/
def after (vs : List (List Char × N)) : LSt := ⟨3, vs.map fun v => (v.1, .val v.2)⟩

theorem rl_made (old : Names) : MadeP plainCtors [] false [] ⟨2, old⟩ rl (after [(cs!"v", lv), (cs!"w", lw), (cs!"z", lz), (cs!"x", lx)])
    [cs!"x", cs!"z", cs!"w", cs!"v"] := by
  have tok : ∀ {w : List Char}, plainB w = true → Tok w := plainB_tok
  have hx : MadeP plainCtors [] true [] (after []) (.mk .UF_APPLY cs!"f" INT_SORT [.mk .VAR cs!"y" INT_SORT []]) (after []) [] :=
    .ufCall (xs := [] ++ []) rfl (by simp) rfl (tok (by decide +kernel)) (by decide) (by decide)
      (.cons (.word rfl (tok (by decide +kernel)) rfl) .nil) rfl
  have hz : MadeP plainCtors [] true [] (after [(cs!"x", lx)]) (.mk .LT cs!"<" BOOL_SORT [lx, .mk .CONST cs!"-5" INT_SORT []])
      (after [(cs!"x", lx)]) [] :=
    .app (xs := [] ++ ([] ++ [])) (by simp [takes, binary]) (.cons (.word (w := cs!"x") (by decide +kernel) (tok (by decide +kernel)) rfl)
      (.cons (.neg (ds := cs!"5") rfl (tok (by decide +kernel)) rfl rfl) .nil)) rfl
  have hw : MadeP plainCtors [] true [] (after [(cs!"z", lz), (cs!"x", lx)]) (.mk .NOT cs!"not" BOOL_SORT [lz])
      (after [(cs!"z", lz), (cs!"x", lx)]) [] :=
    .app (xs := [] ++ []) (by simp [takes, unary]) (.cons (.word (w := cs!"z") (by decide +kernel) (tok (by decide +kernel)) rfl) .nil) rfl
  have hv : MadeP plainCtors [] true [] (after [(cs!"w", lw), (cs!"z", lz), (cs!"x", lx)]) (.mk .OR cs!"or" BOOL_SORT [lw, lz])
      (after [(cs!"w", lw), (cs!"z", lz), (cs!"x", lx)]) [] :=
    .app (xs := [] ++ ([] ++ [])) (by simp [takes, nary]) (.cons (.word (w := cs!"w") (by decide +kernel) (tok (by decide +kernel)) rfl)
      (.cons (.word (w := cs!"z") (by decide +kernel) (tok (by decide +kernel)) rfl) .nil)) rfl
  have inner : MadeP plainCtors [] true [] (after [(cs!"w", lw), (cs!"z", lz), (cs!"x", lx)]) (.mk .LET_CHAIN [] BOOL_SORT [llist lv [], lv])
      (after [(cs!"v", lv), (cs!"w", lw), (cs!"z", lz), (cs!"x", lx)]) [cs!"v"] :=
    .chain (b := lv) (l := llist lv []) (ls := []) (xs := ([cs!"v"] ++ ([] ++ [])) ++ [])
      (.last (.cons (tok (by decide +kernel)) (by decide +kernel) hv rfl .nil) (by decide)
        (.word (w := cs!"v") (by decide +kernel) (tok (by decide +kernel)) rfl))
  have body : MadeP plainCtors [] true [] (after [(cs!"w", lw), (cs!"z", lz), (cs!"x", lx)])
      (.mk .AND cs!"and" BOOL_SORT [lw, .mk .LET_CHAIN [] BOOL_SORT [llist lv [], lv]])
      (after [(cs!"v", lv), (cs!"w", lw), (cs!"z", lz), (cs!"x", lx)]) [cs!"v"] :=
    .app (xs := [] ++ ([cs!"v"] ++ [])) (by simp [takes, nary]) (.cons (.word (w := cs!"w") (by decide +kernel) (tok (by decide +kernel)) rfl)
      (.cons inner .nil)) rfl
  exact .chain (d := false) (sc := []) (st := ⟨2, old⟩) (l := llist lx [lz]) (ls := [llist lw []]) (b := .mk .AND cs!"and" BOOL_SORT [lw, .mk .LET_CHAIN [] BOOL_SORT [llist lv [], lv]])
    (xs := ([cs!"x", cs!"z"] ++ ([] ++ ([] ++ []))) ++ (([cs!"w"] ++ ([] ++ [])) ++ [cs!"v"]))
    (.level (.cons (tok (by decide +kernel)) (by decide +kernel) hx rfl
        (.cons (x := cs!"z") (tok (by decide +kernel)) (by decide +kernel) hz rfl .nil))
      (.last (.cons (tok (by decide +kernel)) (by decide +kernel) hw rfl .nil) (by decide) body))

/-- the case meets the hypotheses of `round_let_partial` -/
theorem rl_round (p : P) (hk : Keys [] p.keys) (hp : p.ph = false) (hb : p.bound = []) :
    ∃ (s : List Char) (t : T Srt) (q : P) (f : Nat), (∀ m, f ≤ m → dump m rl = .ok s) ∧ (∀ m, f ≤ m → mkExpr true m p s = .ok (t, q)) ∧
      buildP plainCtors false [] ⟨2, []⟩ (t.map sortOf) = .ok (rl, after [(cs!"v", lv), (cs!"w", lw), (cs!"z", lz), (cs!"x", lx)]) :=
  round_let_partial plainCtors plain_lawful (goodDecl (by simp [declNames]) (by simp)) p hk hp rl_wf (rl_made []) (by decide)
    (by simp [hb])

/-- `(let ((x (let ((x a)) (f x)))) x)`: the outer variable is the inner one, so its value is `a` and not `(f a)` -/
theorem rebound_let_violated (old : Names) :
    buildP plainCtors false [] ⟨2, old⟩ (.mk (.lets [cs!"x"]) [.mk (.lets [cs!"x"]) [.mk (.sym cs!"a" false) [], .mk (.app cs!"f" 0)
      [.mk (.sym cs!"x" false) []]], .mk (.sym cs!"x" false) []]) =
    .ok (.mk .LET_CHAIN [] INT_SORT [llist (letVar 3 cs!"x" (.mk .VAR cs!"a" INT_SORT [])) [], letVar 3 cs!"x" (.mk .VAR cs!"a" INT_SORT [])],
      after [(cs!"x", letVar 3 cs!"x" (.mk .VAR cs!"a" INT_SORT []))]) := rfl

end SMT.Parse
