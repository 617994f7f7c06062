import Verif.Parse.Fuel
import Verif.Script.Model

/-! # The fuel does not matter for scripts (C77) -/

namespace SMT.Script
open SMT SMT.Text SMT.Lex SMT.Sorts SMT.Parse

set_option linter.unusedVariables false

section
variable {cfg : Cfg}

theorem exprList_le : ∀ {n m : Nat} (h : n ≤ m) (a : List (T Srt)) (p : P), Le (exprList cfg n a p) (exprList cfg m a p)
  | 0, _, _, _, _ => Le.div _
  | n + 1, 0, h, _, _ => by omega
  | n + 1, m + 1, h, a, p => by
    have h1 := (expr_le cfg n m (by omega)).expr
    have h2 := fun a p => exprList_le (n := n) (m := m) (by omega) a p
    rw [exprList, exprList]
    le_auto [h1, h2]

theorem sortList_le : ∀ {n m : Nat} (h : n ≤ m) (a : List Srt) (p : P), Le (sortList cfg n a p) (sortList cfg m a p)
  | 0, _, _, _, _ => Le.div _
  | n + 1, 0, h, _, _ => by omega
  | n + 1, m + 1, h, a, p => by
    have h1 := (sort_le cfg n m (by omega)).1
    have h2 := fun a p => sortList_le (n := n) (m := m) (by omega) a p
    rw [sortList, sortList]
    le_auto [h1, h2]

theorem symList_le : ∀ {n m : Nat} (h : n ≤ m) (a : List (List Char)) (p : P), Le (symList cfg n a p) (symList cfg m a p)
  | 0, _, _, _, _ => Le.div _
  | n + 1, 0, h, _, _ => by omega
  | n + 1, m + 1, h, a, p => by
    have h2 := fun a p => symList_le (n := n) (m := m) (by omega) a p
    rw [symList, symList]
    le_auto [h2]

theorem funParams_le : ∀ {n m : Nat} (h : n ≤ m) (a : List (List Char × Srt)) (p : P), Le (funParams cfg n a p) (funParams cfg m a p)
  | 0, _, _, _, _ => Le.div _
  | n + 1, 0, h, _, _ => by omega
  | n + 1, m + 1, h, a, p => by
    have h1 := (sort_le cfg n m (by omega)).1
    have h2 := fun a p => funParams_le (n := n) (m := m) (by omega) a p
    rw [funParams, funParams]
    le_auto [h1, h2]

theorem recHeads_le : ∀ {n m : Nat} (h : n ≤ m) (s : S) (a : List (List Char × List (List Char × Srt) × Srt)) (p : P),
    Le (recHeads cfg n s a p) (recHeads cfg m s a p)
  | 0, _, _, _, _, _ => Le.div _
  | n + 1, 0, h, _, _, _ => by omega
  | n + 1, m + 1, h, s, a, p => by
    have h1 := (sort_le cfg n m (by omega)).1
    have h2 := fun a p => recHeads_le (n := n) (m := m) (by omega) s a p
    have h3 := (expr_le cfg n m (by omega)).quantVars
    rw [recHeads, recHeads]
    le_auto [h1, h2, h3]

theorem recBodies_le {n m : Nat} (h : n ≤ m) : ∀ (hs : List (List Char × List (List Char × Srt) × Srt)) (s : S) (p : P),
    Le (recBodies cfg n hs s p) (recBodies cfg m hs s p)
  | [], s, p => Le.refl _
  | (x, ps, so) :: hs, s, p => by
    have h1 := (expr_le cfg n m h).expr
    have h2 := fun s p => recBodies_le h hs s p
    rw [recBodies, recBodies]
    le_auto [h1, h2]

theorem singleObj_le {n m : Nat} (h : n ≤ m) (k : OptKind) (s : S) : Le (singleObj cfg n k s) (singleObj cfg m k s) := by
  have h1 := (expr_le cfg n m h).expr
  unfold singleObj
  le_auto [h1]

theorem go_le {a b : Res S} (h : Le a b) :
    Le (do let s ← a; return (false, s) : Res (Bool × S)) (do let s ← b; return (false, s)) := h.bind fun _ => Le.refl _

theorem dispatch_le {n m : Nat} (h : n ≤ m) (c : List Char) (s : S) : Le (dispatch cfg n c s) (dispatch cfg m c s) := by
  have h1 := (expr_le cfg n m h).expr
  have h2 := (sort_le cfg n m h).1
  have h3 := exprList_le (cfg := cfg) h
  have h4 := sortList_le (cfg := cfg) h
  have h5 := symList_le (cfg := cfg) h
  have h6 := funParams_le (cfg := cfg) h
  have h7 := recHeads_le (cfg := cfg) h
  have h8 := recBodies_le (cfg := cfg) h
  have h9 := singleObj_le (cfg := cfg) h
  have h10 := (expr_le cfg n m h).quantHead
  have c1 : Le (cmdAssert cfg n s) (cmdAssert cfg m s) := by unfold cmdAssert; le_auto [h1]
  have c2 : Le (cmdSoft cfg n s) (cmdSoft cfg m s) := by unfold cmdSoft; le_auto [h1]
  have c3 : Le (cmdAssuming cfg n s) (cmdAssuming cfg m s) := by unfold cmdAssuming; le_auto [h3]
  have c4 : Le (cmdConst cfg n s) (cmdConst cfg m s) := by unfold cmdConst; le_auto [h2]
  have c5 : Le (cmdFun cfg n s) (cmdFun cfg m s) := by unfold cmdFun; le_auto [h2, h4]
  have c6 : Le (cmdDefConst cfg n s) (cmdDefConst cfg m s) := by unfold cmdDefConst; le_auto [h1, h2]
  have c7 : Le (cmdDefFun cfg n s) (cmdDefFun cfg m s) := by unfold cmdDefFun; le_auto [h1, h2, h6]
  have c8 : Le (cmdDefRec cfg n s) (cmdDefRec cfg m s) := by unfold cmdDefRec; le_auto [h1, h2, h6]
  have c9 : Le (cmdDefRecs cfg n s) (cmdDefRecs cfg m s) := by unfold cmdDefRecs; le_auto [h7, h8]
  have c10 : Le (cmdDefSort cfg n s) (cmdDefSort cfg m s) := by unfold cmdDefSort; le_auto [h2, h5]
  have c11 : Le (cmdQuant cfg n s) (cmdQuant cfg m s) := by unfold cmdQuant; le_auto [h1, h10]
  have c12 : ∀ k, Le (cmdObj cfg n k s) (cmdObj cfg m k s) := by intro k; unfold cmdObj; le_auto [h9]
  have c13 : Le (cmdDefObj cfg n s) (cmdDefObj cfg m s) := by unfold cmdDefObj; le_auto [h9]
  have c14 : ∀ k, Le (cmdMulti cfg n k s) (cmdMulti cfg m k s) := by intro k; unfold cmdMulti; le_auto [h5]
  have c15 : Le (cmdOptimize cfg n s) (cmdOptimize cfg m s) := by unfold cmdOptimize; le_auto [h5]
  unfold dispatch
  dsimp only
  exact
    (go_le c1).ite <| (go_le c2).ite <| (Le.refl _).ite <| (go_le c3).ite <| (go_le c4).ite <| (go_le c5).ite <| (Le.refl _).ite <|
    (go_le c6).ite <| (go_le c7).ite <| (go_le c8).ite <| (go_le c9).ite <| (go_le c10).ite <| (Le.refl _).ite <| (Le.refl _).ite <|
    (Le.refl _).ite <| (go_le c11).ite <| (Le.refl _).ite <| (go_le (c12 _)).ite <| (go_le (c12 _)).ite <| (go_le c13).ite <|
    (go_le (c14 _)).ite <| (go_le (c14 _)).ite <| (go_le (c14 _)).ite <| (go_le (c14 _)).ite <| (go_le (c14 _)).ite <|
    (go_le (c12 _)).ite <| (go_le (c12 _)).ite <| (go_le c15).ite <| (Le.refl _).ite <| Le.refl _

theorem loop_le : ∀ {n m : Nat} (h : n ≤ m) (s : S), Le (loop cfg n s) (loop cfg m s)
  | 0, _, _, _ => Le.div _
  | n + 1, 0, h, _ => by omega
  | n + 1, m + 1, h, s => by
    have h1 := fun s => loop_le (n := n) (m := m) (by omega) s
    have h2 := fun c s => dispatch_le (cfg := cfg) (n := n) (m := m) (by omega) c s
    rw [loop, loop]
    refine Le.ite (Le.refl _) (Le.bind (Le.refl _) fun p => Le.bind (Le.bind (Le.refl _) fun r => h2 _ _) fun r => ?_)
    exact Le.ite (Le.refl _) (Le.bind (Le.refl _) fun p => h1 _)

end

end SMT.Script
