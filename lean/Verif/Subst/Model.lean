import Verif.Basic
import Verif.Term.Props

/-!
# Function application and substitution (C37)

`src/base_parser.cpp:1857-1915` (`applyFun`), `1917-2009` (`applyFunPostOrder`), `2080-2171` (`substitute`).

Both traversals keep an explicit stack and a table of finished nodes; the nodes are immutable, so the table only saves work, and the
result is the recursion below.  `err_all` prints and exits (`src/base_parser.cpp:2691-2720`): `Res.abort`.
-/

namespace SMT.Subst
open SMT SMT.Term

/-- A function body (`DAGNode`s below a `NT_FUNC_DEF`/`NT_FUNC_REC` node). -/
inductive Body where
  /-- `NT_FUNC_PARAM` -/
  | param (s : Srt) (x : String)
  /-- a literal -/
  | lit (t : Term)
  /-- any variable: a declared constant, a quantified variable, ... -/
  | glob (vk : VK) (s : Srt) (x : String)
  /-- an operator or uninterpreted function -/
  | app (k : Kind) (s : Srt) (ts : List Body)
  /-- `NT_FUNC_APPLY` or `NT_FUNC_REC_APPLY` of the function with this index -/
  | call (i : Nat) (s : Srt) (ts : List Body)
  deriving Repr

/-- A function.  Inside its own body a recursive function is only declared, so calls there are applications of the uninterpreted
function `uf` (`src/base_parser.cpp:1043-1049,1864-1867`). -/
structure Fn where
  uf : Nat
  sort : Srt
  params : List (Srt × String)
  /-- `none`: only declared -/
  body : Option Body
  isRec : Bool

/-- `expand_functions`, `expand_recursive_functions` (`include/options.h:72,77`) -/
structure Opts where
  expand : Bool := true
  expandRec : Bool := false

/-- the functions, by index -/
abbrev Table := List Fn

/-- the new node of both traversals (`src/base_parser.cpp:1942-1960,2128-2140`): uninterpreted applications keep their name,
everything else goes through `mkOper`, which exits if there is no operand (`src/op_parser.cpp:203-207`) -/
def build (c : Cfg) (k : Kind) (s : Srt) (us : List Term) : Res Term :=
  match k with
  | .uf i => .ok (.app (.uf i) s us)
  | k => if us.isEmpty then .abort else .ok (mkOper c s k us)

mutual
/-- `applyFunPostOrder` (`src/base_parser.cpp:1917-2009`).  `call i us` is the application of function `i` to the results `us`. -/
def post (c : Cfg) (call : Nat → List Term → Res Term) (σ : List (String × Term)) : Body → Res Term
  | .param _ x => .ok ((σ.lookup x).getD .err)
  | .lit t => .ok t
  | .glob _ _ _ => .abort
  | .app k s ts => (postL c call σ ts).bind fun us => build c k s us
  | .call i _ ts => (postL c call σ ts).bind fun us => call i us
/-- the children -/
def postL (c : Cfg) (call : Nat → List Term → Res Term) (σ : List (String × Term)) : List Body → Res (List Term)
  | [] => .ok []
  | t :: ts => (post c call σ t).bind fun u => (postL c call σ ts).bind fun us => .ok (u :: us)
end

/-- What the traversal does with a call of a recursive function that is not expanded (`src/base_parser.cpp:1945-1948,1985-1991`):
all children are processed, the first of which is the function node itself, and the new application gets all results as
operands. -/
def junkCall (c : Cfg) (call : Nat → List Term → Res Term) (σ : List (String × Term)) (f : Fn) (i : Nat) (us : List Term) : Res Term :=
  match f.body with
  | none => .abort
  | some b => (post c call σ b).bind fun b' =>
      .ok (.app (.misc i) f.sort
        (mkOper c f.sort (.misc 0) (b' :: f.params.map fun p => (σ.lookup p.2).getD .err) :: us))

mutual
/-- `applyFun` (`src/base_parser.cpp:1857-1915`); `n` bounds the nesting of calls, `.misc i` is an application of function `i` that
is left as it is -/
def applyFun (c : Cfg) (o : Opts) (F : Table) : Nat → Nat → List Term → Res Term
  | 0, _, _ => .diverge
  | n + 1, i, args =>
    match F[i]? with
    | none => .ub
    | some f =>
      if f.params.length ≠ args.length then .ok .err
      else match f.body with
        | none => .ok (.app (.uf f.uf) f.sort args)
        | some b =>
          if f.isRec && !o.expandRec then .ok (.app (.misc i) f.sort args)
          else if !f.isRec && !o.expand then .ok (.app (.misc i) f.sort args)
          else match args.find? fun a => a.isErr with
            | some a => .ok a
            | none =>
              post c (inner c o F n ((f.params.map Prod.snd).zip args)) ((f.params.map Prod.snd).zip args) b
/-- a call inside a body, its operands processed (`src/base_parser.cpp:1945-1956`) -/
def inner (c : Cfg) (o : Opts) (F : Table) : Nat → List (String × Term) → Nat → List Term → Res Term
  | 0, _, _, _ => .diverge
  | n + 1, σ, i, us =>
    match F[i]? with
    | none => .ub
    | some f => if f.isRec && !o.expandRec then junkCall c (inner c o F n σ) σ f i us else applyFun c o F n i us
end

/-! ## Substitution -/

mutual
/-- `substitute` (`src/base_parser.cpp:2086-2171`); `arr` are the array sorts -/
def subst (c : Cfg) (arr : Srt → Bool) (σ : List (String × Term)) : Term → Res Term
  | .var vk s x => .ok ((σ.lookup x).getD (.var vk s x))
  | .unknown => .abort
  | .err => .abort
  | .app k s ts => (substL c arr σ ts).bind fun us =>
      if arr s then .ok (.app k s us) else build c k s us
  | t => .ok t
/-- the children -/
def substL (c : Cfg) (arr : Srt → Bool) (σ : List (String × Term)) : List Term → Res (List Term)
  | [] => .ok []
  | t :: ts => (subst c arr σ t).bind fun u => (substL c arr σ ts).bind fun us => .ok (u :: us)
end

end SMT.Subst
