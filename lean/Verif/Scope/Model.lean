import Verif.Basic

/-!
# Names, quantifiers and `let` (C38, C49)

`src/expr_parser.cpp:81-664` (symbols, `let`, quantifiers), `src/base_parser.cpp:1607-1832` (`parsePreservingLet`, `parseLet`),
`2025-2070` (`mkQuantVar`, `parseQuant`), `src/op_parser.cpp:579-615` (let nodes).

The input is the expression as written, already split into tokens.  Building an operator node is symbolic here (folding is the
subject of `Verif.Term`).  The process exit in the `err_*` functions (`src/base_parser.cpp:2691-2720`: print a message,
`exit(0)`) is the outcome `abort`.
-/

namespace SMT.Scope

mutual
/-- an expression as written -/
inductive E where
  | sym (s : String)
  | app (op : String) (args : Es)
  /-- `(forall ((x s) …) body)` / `(exists …)`; sorts are numbered -/
  | quant (all : Bool) (bs : List (String × Nat)) (body : E)
  | letE (bs : Bs) (body : E)
/-- arguments -/
inductive Es where
  | nil
  | cons (e : E) (es : Es)
/-- let bindings -/
inductive Bs where
  | nil
  | cons (x : String) (e : E) (bs : Bs)
end

mutual
/-- a node -/
inductive R where
  /-- function name (`fun_key_map`) -/
  | fn (s : String)
  /-- function parameter (`fun_var_map`) -/
  | par (s : String)
  /-- global variable (`var_names`) -/
  | glob (s : String)
  /-- `NT_QUANT_VAR` with its name and sort -/
  | qv (x : String) (s : Nat)
  /-- `NT_LET_BIND_VAR` with its name and child (`src/op_parser.cpp:579-592`) -/
  | letv (x : String) (r : R)
  | app (op : String) (args : Rs)
  /-- `NT_FORALL`/`NT_EXISTS`: body and variables (`src/base_parser.cpp:2073-2078`) -/
  | quant (all : Bool) (vars : List (String × Nat)) (body : R)
  /-- `NT_LET_CHAIN` (`src/op_parser.cpp:602-615`); the lists of bound variables are flattened -/
  | chain (binds : Rs) (body : R)
/-- node lists -/
inductive Rs where
  | nil
  | cons (r : R) (rs : Rs)
end

/-- concatenation of node lists -/
def Rs.append : Rs → Rs → Rs
  | .nil, t => t
  | .cons r s, t => .cons r (s.append t)

/-- The names known before parsing starts and the option `parsing_preserve_let` (`include/options.h:67`, default `true`). -/
structure Ctx where
  funs : List String
  params : List String
  vars : List String
  keep : Bool

/-- Parser state (`include/parser.h:122-135`, `150-170`).  `lets` is `preserving_let_key_map` when bindings are kept (the key
is the name with the fixed suffix and the counter, `src/expr_parser.cpp:614`; kept here as a pair) and `let_key_map` otherwise
(the second component is then 0).  `quants` is `quant_var_map`.  `depth` is `let_nesting_depth`, `qdepth` is
`quant_nesting_depth`; `current_let_mode` differs from `LM_NON_LET` exactly while `depth > 0`
(`src/expr_parser.cpp:357-376`), `in_quantifier_scope` holds exactly while `qdepth > 0` (`205-216`). -/
structure S where
  lets : List ((String × Nat) × R)
  quants : List (String × (String × Nat))
  counter : Nat
  depth : Nat
  qdepth : Nat

/-- key of a let-bound name -/
def key (c : Ctx) (st : S) (x : String) : String × Nat := (x, if c.keep then st.counter else 0)

/-- the let part of symbol resolution (`src/expr_parser.cpp:613-624`) -/
def letLookup (c : Ctx) (st : S) (x : String) : Option R :=
  if st.depth = 0 then none else st.lets.lookup (key c st x)

/-- `parseConstFunc` on a name (`src/expr_parser.cpp:598-649`).  Simplification: the alternatives with and without vertical
bars (`650-667`) and literals are left out; a name found nowhere ends the process (`err_unkwn_sym`). -/
def resolve (c : Ctx) (st : S) (x : String) : Res R :=
  match letLookup c st x with
  | some r => .ok r
  | none =>
    if x ∈ c.funs then .ok (.fn x)
    else if x ∈ c.params then .ok (.par x)
    else
      match (if st.qdepth = 0 then none else st.quants.lookup x) with
      | some v => .ok (.qv v.1 v.2)
      | none => if x ∈ c.vars then .ok (.glob x) else .abort

/-- `mkQuantVar` (`src/base_parser.cpp:2025-2034`) -/
def mkQuantVar (st : S) (x : String) (s : Nat) : (String × Nat) × S :=
  match st.quants.lookup x with
  | some v => (v, st)
  | none => ((x, s), { st with quants := (x, (x, s)) :: st.quants })

/-- the loop over the bound variables (`src/base_parser.cpp:2041-2051`) -/
def mkQuantVars (st : S) : List (String × Nat) → List (String × Nat) × S
  | [] => ([], st)
  | (x, s) :: bs =>
    let (v, st1) := mkQuantVar st x s
    let (vs, st2) := mkQuantVars st1 bs
    (v :: vs, st2)

/-- erasing the bound names on leaving (`src/base_parser.cpp:2067-2069`) -/
def eraseQ (names : List String) (q : List (String × (String × Nat))) : List (String × (String × Nat)) :=
  q.filter fun p => decide (p.1 ∉ names)

/-- erasing let names (`src/base_parser.cpp:1809-1811`) -/
def eraseL (ks : List (String × Nat)) (l : List ((String × Nat) × R)) : List ((String × Nat) × R) :=
  l.filter fun p => decide (p.1 ∉ ks)

/-- Adding a binding after its value was parsed: `mkLetBindVar` (`src/op_parser.cpp:579-592`) or `let_key_map.insert`
(`src/base_parser.cpp:1781`).  Neither overwrites an entry. -/
def bind (c : Ctx) (st : S) (x : String) (r : R) : R × S :=
  match st.lets.lookup (key c st x) with
  | some old => (if c.keep then old else r, st)
  | none =>
    let v := if c.keep then .letv x r else r
    (v, { st with lets := (key c st x, v) :: st.lets })

/-- the state after reading the word `let` (`src/expr_parser.cpp:358-364`) -/
def enterLet (st : S) : S :=
  { st with counter := if st.depth = 0 then st.counter + 1 else st.counter, depth := st.depth + 1 }

mutual
/-- `Parser::parseExpr` (`src/expr_parser.cpp:81-588`) when `inLet` is false.  With `inLet` the function reads the body of a
`let` (`src/base_parser.cpp:1683-1716`, `1791-1808`): a body that is itself a `let` is handled by the same loop, without
another nesting level, and its bound variables are added to those of the enclosing `let`; any other body is read by
`parseExpr`.  The result is the list of bound variables of the levels read (empty without `inLet`) and the node.

The `let` itself is `parsePreservingLet` / `parseLet` (`src/base_parser.cpp:1607-1724`, `1728-1832`).  When bindings are not
kept, the names of a level are erased at its end (`1809-1811`); `parseLet` then reads the result from a `LetContext` that was
just destroyed by `pop_back` (`1813-1818`), which is undefined behaviour; the model returns the value that was stored
there. -/
def parse (c : Ctx) (st : S) (inLet : Bool) : E → Res ((Rs × R) × S)
  | .sym x => (resolve c st x).bind fun r => .ok ((.nil, r), st)
  | .app op args => (parseArgs c st args).bind fun p => .ok ((.nil, .app op p.1), p.2)
  | .quant all bs body =>
    -- `src/expr_parser.cpp:205-216`, `src/base_parser.cpp:2035-2070`
    let vs := mkQuantVars { st with qdepth := st.qdepth + 1 } bs
    (parse c vs.2 false body).bind fun p =>
      .ok ((.nil, .quant all vs.1 p.1.2),
        { p.2 with quants := eraseQ (bs.map Prod.fst) p.2.quants, qdepth := p.2.qdepth - 1 })
  | .letE bs body =>
    -- `src/expr_parser.cpp:357-383`
    (parseBinds c (if inLet then st else enterLet st) bs).bind fun p =>
      if c.keep && p.1.2.isEmpty then .ub  -- `bind_vars[0]` of an empty list (`src/op_parser.cpp:598`)
      else
        (parse c p.2 true body).bind fun q =>
          let st1 := if c.keep then q.2 else { q.2 with lets := eraseL p.1.2 q.2.lets }
          if inLet then .ok ((p.1.1.append q.1.1, q.1.2), st1)
          else .ok ((.nil, if c.keep then .chain (p.1.1.append q.1.1) q.1.2 else q.1.2), { st1 with depth := st1.depth - 1 })

/-- the arguments of an application (`src/expr_parser.cpp:426-588`) -/
def parseArgs (c : Ctx) (st : S) : Es → Res (Rs × S)
  | .nil => .ok (.nil, st)
  | .cons e es => (parse c st false e).bind fun p => (parseArgs c p.2 es).bind fun q => .ok (.cons p.1.2 q.1, q.2)

/-- the bindings of one level (`src/base_parser.cpp:1633-1673`, `1748-1786`): the variables and the keys added -/
def parseBinds (c : Ctx) (st : S) : Bs → Res ((Rs × List (String × Nat)) × S)
  | .nil => .ok ((.nil, []), st)
  | .cons x e bs =>
    match st.lets.lookup (key c st x) with
    | some _ => .abort  -- "Duplicate variable binding"
    | none =>
      (parse c st false e).bind fun p =>
        let v := bind c p.2 x p.1.2
        (parseBinds c v.2 bs).bind fun q => .ok ((.cons v.1 q.1.1, key c st x :: q.1.2), q.2)
end

/-- a new parser (`src/base_parser.cpp:40-53`) -/
def start : S := ⟨[], [], 0, 0, 0⟩

end SMT.Scope
