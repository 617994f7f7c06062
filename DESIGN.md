# Formal model of fuqi-jia/SMTParser in Lean 4

## Approach

The C++ sources in /repo were read as text. Each modelled function is transcribed, branch by
branch, into a total Lean 4 function under `lean/Verif`. Every definition carries a comment with the
file and lines it models and the simplifications made. Specifications are written separately
(`BitVec`, `Int`, `List`, finite maps, or a small denotational semantics) and each property is a
theorem that relates model and specification for all inputs.

Where the code does not satisfy the property as stated (it has several real bugs) we

* prove the strongest true part as a theorem with suffix `_partial`, with the missing part named, and
* prove a theorem with suffix `_violated` giving a concrete input on which the model breaks the
  property, so that the reader can see that the failure is of the code, not of the proof.

C++ effects are made explicit: `Res α` has outcomes `ok`, `throw` (exception), `abort` (failed
condAssert/exit), `ub` (undefined behaviour) and `diverge` (infinite loop/recursion) so that a crash is
never identified with a value.

## Trusted base

* Lean 4.33.0's kernel; axioms at most `propext`, `Classical.choice`, `Quot.sound` (no own axioms,
  no compiled-code evaluation). `decide +kernel` is evaluation by the kernel.
* Mathlib modules (checked by the same kernel) are imported only by `Num/*`, `Kind/Props`, `Value/*`
  and `RealText/*`; everything else uses Lean's core library alone.
* The correspondence between /repo's C++ and the Lean definitions, which was made by hand (comments
  cite lines). Three tables were copied by scripts from the source text: the kinds and their names
  (`Kind`), the dispatch of operators in the parser (`Parse/Build.disp`) and in evaluation
  (`EvalDisp/Table`).
* The specifications (`Spec` files and sections, and the statements of the theorems).
* Idealisations: `std::string` = list of characters (bytes), GMP integers = `Int`, MPFR reals = exact
  rationals or real numbers with a rounding function of which only the stated properties are used,
  `std::unordered_map` = association list or finite map (iteration order is a parameter where it can
  be observed), `shared_ptr` identity = structural equality of terms (justified by C19-C21) unless the
  module says otherwise, no memory exhaustion, no stack overflow, `size_t` arithmetic without
  overflow of 2^64 unless stated.

## Modelled parts of the code

| module | code | properties |
|---|---|---|
| `BV` | bit strings: `util.cpp` BitVectorUtils, constants | C01-C10 |
| `Text` | integers, numerals, strings: `util.cpp` TypeChecker, StringUtils | C11-C13 |
| `Num`, `Num/Fun*`, `Num/IntClass` | `number.cpp`, `interval.cpp` | C14, C25, C43-C46, C58, C59, C73, C78 |
| `Kind`, `Sort` | `kind.cpp`, `sort.h`, sort parts of `op_parser.cpp` | C15-C18 |
| `Store`, `Api` | node table, API constructors, `rewriter.cpp` | C19-C21, C47, C27, C36, C42, C48 |
| `Term` | constructors of the core theory and arithmetic, folding (`op_parser.cpp`, `simp_parser.cpp`) | C22-C24 |
| `Arr`, `Eval`, `EvalDisp` | evaluation (`eval_parser.cpp`), arrays | C26, C35, C66 |
| `Conv` | NNF, CNF, DNF, flattening, atom maps (`conv_parser.cpp`) | C28-C34, C51, C61 |
| `Scope`, `Subst`, `Norm`, `Walk`, `LetExp` | scopes, function application, substitution, normalisation, traversals, let expansion (`base_parser.cpp`) | C37, C38, C49, C50, C60, C65, C70 |
| `Lex`, `Parse`, `Typing` | characters to terms and sorts (`base_parser.cpp`, `expr_parser.cpp`) | C40, C41, C52-C55, C76, C77 |
| `Script`, `Opts` | commands, scripts, options, objectives (`base_parser.cpp`, `opt_parser.cpp`, `objective.cpp`, `options.h`) | C56, C57, C71, C72, C77 |
| `Print`, `Dump`, `MdlText`, `RealText` | printing of terms, scripts, models, real constants (`dag.cpp`, `model.cpp`) | C39, C67-C69, C74, C75 |
| `Value` | `value.cpp` | C62-C64 |
| `Mean` | reading, building and evaluating put together | C79-C84 |

The models of the stages are connected by theorems: text to tree of calls (C41, C56), tree of calls
to node (C79, C80, C82, C83, C84), node to value in a model (C81).

## Not modelled

The rounding of MPFR (only assumptions on it), folding and conversion of floating-point literals
(`fpToUbv`, `fpToSbv`), the constructors of floating-point, string and regular-expression terms beyond
their sorts and the dispatch to them (no meaning is given to their nodes), quantifiers' meaning,
evaluation of quantifiers and of the operators that `evaluate` passes to the generic rule beyond that
rule (C66), statistics and timing, the texts of error messages, `context.cpp`, the file system (a file is
its sequence of characters), real algebraic numbers, experimental entry points without definition.

## Plan per property

| id | property | what is modelled | how it is proved |
|---|---|---|---|
| C01 | Bitwise bit-vector folding is exact | `Verif/BV/*`: bvNot/bvAnd/... as functions on lists of characters `#b...` with a `Res` outcome; spec = Lean core `BitVec w` | for every width and all `x y : BitVec w`, `bvAnd (lit x) (lit y) = ok (lit (x &&& y))`, by induction on the digit list |
| C02 | Modular bit-vector arithmetic is exact (neg, add, mul) | same; ripple carry loop of bvAdd, the shift-and-add loop of bvMul | loop invariant on carry / accumulated value |
| C03 | bvsub folding is exact | borrow loop of bvSub | the code is wrong: negation theorem with witness, `_partial` theorem for the operands where it is right |
| C04 | Unsigned division and remainder follow SMT-LIB | bvUdiv/bvUrem long division over the code's own bvSub | negation by witness; zero divisor clause proved for all widths as `_partial` |
| C05 | Signed division, remainder and modulus follow SMT-LIB | bvSdiv/bvSrem/bvSmod case split | zero divisor / sign clauses, negation by witness |
| C06 | Shifts follow SMT-LIB | bvShl/bvLshr/bvAshr incl. decimal reading of the shift amount | negation by witness; `_partial` for amounts whose decimal reading agrees |
| C07 | Structural bit-vector operations are exact | bvConcat, bvExtract, bvRepeat, extensions, rotations | list equalities |
| C08 | Bit-vector / integer conversions are mutually inverse | bvToNat, bvToInt, natToBv, intToBv | value lemmas by induction over digits |
| C09 | Bit-vector comparisons decide the SMT-LIB order | bvComp over string/number comparison | value lemma |
| C10 | Every bit-vector fold returns a literal of the sort's width | all of the above | length lemmas; negation for oversize shifts |
| C11 | String folding follows SMT-LIB | StringUtils on List Char | spec written from SMT-LIB text; theorem per function; negation where code throws/loops |
| C12 | Escaping a string and unescaping it gives the string back | escapeString/unescapeString | induction, restricted to the character class where code is right (`_partial`) plus negation |
| C13 | Numeric tokens are classified and valued correctly | TypeChecker::isInt/isReal ... | characterisation with exact exceptions (bare sign, bare dot) |
| C14 | Integer helper functions compute the mathematical function | MathUtils | induction on fuel-free recursion; partial domains + negations |
| C15 | Operator names survive printing and re-parsing | kindToString and the operator-name table | finite table by kernel decision lifted to all kinds |
| C16 | Negating a comparison operator complements it | getNegatedKind, COMPARE_OPERATOR negation | semantics of each comparison as a relation; all operands |
| C17 | Flipping a comparison operator swaps its operands | getFlipKind, getFlipOperator | as C16 |
| C18 | Sort equality is an equivalence that separates different sorts | Sort and operator==, SortManager | reflexive/symmetric proved; transitivity and separation refuted with witness |
| C19 | Hash-consing: same structure if and only if same node | NodeManager::createNode, bucket table, arbitrary hash function | invariant over all histories of requests |
| C20 | The variable table is functional over every history | mkVar/getVariable/rename over maps | invariant over op lists |
| C21 | Traversal visits every reachable node exactly once | Visitor stack walk, node count | termination and exactly-once over every finite DAG |
| C22 | Boolean constructors preserve meaning | mkNot..mkDistinct, simp_oper on Boolean kinds, over a term language with a denotational semantics | for all operand lists and all environments; negation witnesses for n-ary eq/distinct bugs |
| C23 | Negation of comparison atoms preserves meaning | negateComp | all operators; negation for n>2 |
| C24 | Arithmetic constructors preserve meaning | mkAdd/mkMul/mkSub/mkNeg/mkLe.. | all operand lists; parser option as parameter |
| C25 | Integer division folding follows SMT-LIB | simp_oper DIV_INT/MOD | partial (same-sign) + negation |
| C26 | Array simplification preserves meaning | rewriteSelect, normalizeStoreChain, canonicalizeArray, areArraysEqual | sound for constant indices (`_partial`), negation for symbolic |
| C27 | The rewriter preserves meaning and terminates | rewriter rules and driver | equivalence by induction, termination by totality and round bound |
| C28 | NNF conversion is an equivalence and produces NNF | toNNF recursion | equivalence by mutual induction on polarity; shape |
| C29 | DNF conversion is an equivalence and produces DNF | toDNF pipeline | equivalence / shape |
| C30 | CNF (Tseitin) conversion is equisatisfiable with models preserved both ways | toTseitinCNF | two-way semantic theorem |
| C31 | CNF output is in CNF over literals | toCNF, isCNF | shape |
| C32 | Atom and node replacement replaces every occurrence | replaceAtoms with its visited map | equals simultaneous replacement on tree-shaped inputs, negation for shared |
| C33 | Splitting and binarising comparisons preserve meaning | splitOp, binarizeOp | equivalence, negation for n>2 split |
| C34 | Flattening nested conjunctions and disjunctions preserves meaning | eliminateTopContinuousAnd / eliminateContinuousOr | equivalence + termination |
| C35 | Evaluation under a model agrees with the semantics | evaluate* | soundness for all extending assignments |
| C36 | Models behave like finite maps | Model | refinement to a finite map over op lists |
| C37 | Substitution and function application have the meaning of replacement | applyFun, substitute | substitution lemma; capture witness |
| C38 | let is evaluated with SMT-LIB (parallel) scoping | parseLet | sequential vs parallel semantic; negation witness; partial when bindings do not refer to each other |
| C39 | Printing an expression is the recursive SMT-LIB rendering | dumpSMTLIB2_streaming work stack machine | machine output equals recursive rendering, for all terms |
| C40 | Tokenising never runs past the input and skipping a command stops at its closing parenthesis | getSymbol/scanToNextSymbol/skipToRpar on a character buffer with cursor | totality by fuel-free well-founded recursion; matching parenthesis |
| C41 | Printing then parsing gives the term back | printer + tokeniser + expression reader (fragment); buildP: the constructors called with lets kept (counter, key map, chains) | round trip by induction, once without lets and once with let chains, the state of the lets threaded in the order of the text |
| C42 | checkSat's verdict is sound over every history | assert/checkSat state machine | negation with history; partial invariant |
| C43 | Interval set operations denote the set operations | Interval over extended rationals | membership theorems + negation |
| C44 | Interval arithmetic over-approximates | interval operators | inclusion theorems + negation |
| C45 | Counting and listing integers of an interval is exact | getIntegers/getIntervalIntCount | closed integer ends: exact; negation for open ends |
| C46 | Mixed integer/real numbers form an ordered field fragment | Number with idealised reals (rationals) | value homomorphism + negation for compound assignment |
| C47 | Fresh variables are fresh | mkTempVar | invariant over histories; negation for printed names |
| C48 | Commutative argument sorting does not change meaning | sortParams with arbitrary hash | Perm + canonical |
| C49 | Quantifier scoping is respected | mkQuantVar scoping stack | partial + negation |
| C50 | Normalising an arithmetic atom preserves meaning | arithNormalize | equivalence over Int |
| C51 | Removing a node removes every occurrence | remove with its visited table | equals recursive removal |
| C52 | The parser reads the expression that is written | parseExpr/parseLet/parseQuant/parseParams on a character buffer | relation `Reads` from S-expressions to terms (spec), induction over it for every layout |
| C53 | The parser reads the sort that is written | parseSort with its cache | relation `SortOf` (spec), induction; cache invariant over the history |
| C54 | A symbol or constant token is read as what it writes; |x| and x are the same name | parseConstFunc and the token classifiers | relation `Writes` (spec): completeness, soundness up to listed odd tokens |
| C55 | A constructor accepts exactly the well-sorted operands and gives the SMT-LIB sort | the sort checks of every node constructor (chk1..chk4, chkN) | SMT-LIB signatures as a relation `HasSort` (spec): completeness for every operator and by induction for every term; soundness for the operators that check; the unchecked ones refuted |
| C56 | A script is recorded exactly: assertions, groups, names, declarations and definitions in order | parseCommand with every command, parseSmtlib2File, parseStr, function tables, groups and names | the script as text is a relation `Script` (spec); `Represents` says what the getters return; induction over the commands with one lemma per command; refuted commands as concrete runs |
| C57 | The objectives of a script are recorded as written | opt_parser.cpp commands, objective.cpp operator tables | the same induction; objectives compared with the goals of the script by `IsObj` |
| C58 | Interval functions enclose every value of the real function | every elementary function of number.cpp and interval.cpp over an arbitrary monotone rounding of the reals with neighbour functions (`Lib`) | Mathlib's real functions are the specification (`Encloses`): monotonicity of f, and the neighbour of a rounded value lies strictly beyond the exact one; refuted functions by concrete intervals for every rounding |
| C59 | Interval powers, integer division and remainder enclose every value | pow with integer and fractional exponents, pow2, divInt, mod | monotonicity on each sign; corners for divInt; refuted cases by concrete intervals |
| C60 | Collecting variables and atoms returns exactly those that occur, visiting shared nodes once | the walks of conv_parser.cpp over the node store of Store (addresses, shared children) and isAtom | a set-based specification `Path`/`ReachN` on the graph; invariant of the walk with visited set; a step count linear in nodes and edges |
| C61 | The tables between atoms and the variables of the clauses are inverse | cnf_atom_map, cnf_bool_var_map and the functions reading them, any iteration order | invariant over histories of conversions; refuted for the listings whose result depends on the order |
| C62 | A Value is the last thing stored in it, and nothing else | class Value: four members and a tag; every statement on a variable | refinement: the history of a variable maps to the history of an abstract sum type; refuted for the uninitialised Boolean, newValue(long) and string literals |
| C63 | Values compare as their contents | the comparison operators of Value over the number and interval models | equivalence with equality and order of contents; refuted for values without content, NaN and overlapping intervals |
| C64 | String functions and conversions of values | the string functions and conversions of Value | induction over the texts against splitting specifications; refuted for empty patterns, substr at the end, non-ASCII trim |
| C65 | Expanding lets | expandLet as an explicit stack machine with its memo table over interned nodes | loop = bottom-up recursion by strong induction on the node with an invariant of the table; value by induction; refuted for applications of uninterpreted functions (their name is lost) |
| C66 | Which operators evaluation evaluates | the dispatch tables of evaluate and evaluateSimpleOp over all kinds (generated from the source) and the evaluator that follows them | kernel computation over all kinds for the table facts, induction over terms for values; refuted for the kinds that are not evaluated, int2bv, bv2int and divisible |
| C67 | A written problem is read back as the same problem | dumpSMT2 as a function from what it reads of the parser (logic, sort table, variables, functions, assertions) to text, on top of the printer model (Verif/Dump). | The text is shown to be a script in the sense of C56; str_recorded/file_recorded then give what is recorded, and view_made (C41) that the constructors called while reading return the old nodes. Violated without set-logic and for mutually recursive functions. |
| C68 | The text of a model is read as the model | parseModel with its header test, its two passes, its symbol reader and its exception handler, on top of the models of the scanner, the sort and expression parser and the script state (Verif/MdlText). | Induction over the definitions, once for each pass, with the lemmas of C52-C56 for sorts and terms; the effect on the model is a fold whose result is related to the last definition of each name. |
| C69 | A written model is read back as the same model | Model::toString on top of the printer model, and parseModel as in C68. | The text between (model and ) is a text in the sense of C68, and view_made (C41) gives the nodes. Violated: parseModel takes the first opening parenthesis of the bare text for one around all definitions and returns an empty model. |
| C70 | Expressions in one variable are recognised | isUnit, getUnitVar and isUnitAtom as one loop over a stack, a visited set and a set of variables, on the heap of the node manager. | Induction on the number of nodes not visited: visited nodes are closed under operands up to the stack, the set of variables is the visited variables; value_congr (C60) for the dependence. |
| C71 | The parser's tables stay consistent and only grow | The command model of C56 for arbitrary text, with removeFuns, getFunctions and the API constructors of functions as operations of a history. | Every command satisfies a transitive relation (tables extended, consistency kept), by inversion of its run; induction over histories. Violated: functions made through the API are declared but never listed. |
| C72 | Every option has the value asked for last | The option record with its defaults, setOption with the four overloads of Parser and the typed setters, histories in which a call may throw. | Each call changes exactly the option it names; induction over histories from the right, comparing with the last request. Violated for string literals (the bool overload is chosen), integers for Boolean options and failed precision calls. |
| C73 | Operating on intervals by operator kind, and in place | The three overloads of operate as tables over all kinds, the compound assignments and log(Interval). | Each supported kind through the enclosure theorem of its function (C58, C44, C43); the others throw by case split over all kinds; and/or by the set theorems of C43. Violated: or of disjoint intervals loses closed ends, /= of integer ends truncates, += of a real on integer ends does nothing. |
| C74 | A real constant keeps the value it was made from | toString of a real over rationals (fixed 17 decimals, 17 significant digits, scientific), std::to_string of a double, the reading of a constant's text, mkConstReal from each source, folding of two constants. | The value of digits with a point, of padded digits and of stripped zeros by induction; rounding half to even within 1/2; decimal logarithm bounds (Mathlib Int.log) decide the notation. Violated: scientific notation has a letter, so no value is read and 0 is used. |
| C75 | Folding an operator of numeric constants keeps the value | simp_oper of one and two numeric constants: the constants' text and sort, the two options, every real function with its domain test, rounding operators, comparisons, sums, quotients with the 32-bit conversion, powers, logarithms, atan2. | Per-operator tables of the real function and its domain against the model; rounding of the result through the text theorems of C74; counterexample theorems for each failure, with concrete cases over a grid format. |
| C76 | Keeping lets and expanding them give the same term | The calls of the node constructors made for one tree in the two modes (Parse/RoundLet buildC/buildLv for the preserving mode, Parse/Model build for the expanding mode). | A simulation by structural induction over the tree, for every relation that sees through let variables and chains and that the constructors keep; instances: equality after replacing let variables, equality of meaning. Two counterexample theorems for reused names. |
| C77 | Reading any text ends | All reading functions of Lex/Model, Parse/Model and Script/Model, which are defined with a fuel. | For each function: with a fuel of (M + 20) times the length of the rest of the text plus a constant the answer is not `diverge`, the rest does not grow, and the arities stay at most M; induction on the fuel, with a weight for the steps of the frame stack that read nothing. More fuel does not change the answer (Parse/Fuel, Script/Fuel). The missing bound in the length alone is refuted by a text of 40 characters. |
| C78 | The integer class computes what it says | Num/IntClass: the integer class, conversions between integers, reals, machine integers and text; GMP text functions after their documentation. | Loop invariants for factorial and fibonacci with the wrapping counter; arithmetic for ranges; Nat.digits and place values for text; uniqueness of the nearest integer; refutations: the loops at the largest unsigned long, the wrapping toInt of a real, the real typed zero. |
| C79 | A formula that is read means what is written | Mean: the parser's tree of calls (Parse), operator dispatch (Parse/Build), symbol lookup (Parse/Leaf) and the constructors (Term) put together; specification: an inductive SMT-LIB semantics of written terms with parallel lets. | Rule induction on the semantics, carrying the scope invariant and the shape invariant of nodes (Std) from C35; text by C52, scripts by C56; refutations on concrete terms (three-operand comparison, n-ary = with true, simultaneous let, product with zero in logic ALL). |
| C80 | A bit-vector formula that is read means what is written | Mean/BvModel: the constructors of bit-vector nodes (sort, reordering of operands, folding by C01-C09); specification Mean/BvSpec: the theory in terms of Lean's BitVec; the rules are part of the semantics of C79. | One lemma per constructor (made_*): it answers, the node has the value and keeps the invariants; the operators on constants by the exactness theorems of C01-C09, among them those of wrongFold on the constants where they are right (ExactOn, FoldsBv, foldsBv_val); then the same rule induction as C79 with the additional invariant that a term with a variable operand is not made a constant; refutations: the operators that fold wrongly, the extensions, a captured literal. |
| C81 | Evaluating a formula that was read gives the value of what is written | The models of C79 and C35 put together; specification Mean/EvalSpec: the assignment follows the model, the model is complete, the literal of a value, NodeEvaluates. | Eval/Neat*: the nodes made by the constructors are terms that evaluation handles and in which every operator has a variable below it (so that evaluation with a complete model changes something at every node), by one lemma per constructor and induction on the written term (goodN_means); with C35 soundness this gives the value, and an induction on the node (ev_live) that a complete model leaves a literal. |
| C82 | A call of a defined function means its definition | Mean/DefModel: the table of functions as the script builds it, parameters as nodes of their own, the body as Subst's Body, a call as Subst's applyFun; specification Mean/DefSpec: Defines (the assignment gives a defined function the value of its body), DefNode. | By induction on the table: every body is a node that evaluation handles; a call copies it (body_sound: by induction on the body, with the lemmas of C81 for every constructor, on the environment in which the parameters have the values of the arguments); then goodN_means for the term, with an assignment for what is written and another one, which says nothing of defined functions, for nodes; refuted: definitions without parameters, recursive ones, bodies with declared constants. |
| C83 | Division, remainder, absolute value and conversions: a formula that is read means what is written | Mean/ArModel: the constructors of these nodes (test of sorts, folding of constants); specification Mean/ArSpec: the operators, and division by zero; a rule of the semantics of C79. | The same rule induction as C79, with the additional invariant that the node of a term that can be seen to be of sort Int or Real (OfSort) has this sort, which needs the sorts of sums, products and conditionals (Mean/ArSort), and that a term with a variable is no constant; one lemma for all constructors (call_ar), for constants computed rightly by call_fold; refuted on other constants: rounding towards zero, exceptions, 32 bits, is_int of a decimal, third operands. |
| C84 | Strings: a formula that is read means what is written | Mean/StrModel: the constructors of these nodes (test of sorts, folding of literals by the functions of C11); specification Mean/StrSpec: the operators on lists of characters; two rules of the semantics of C79 (string literals, operators). Not modelled: Term.isStrTerm leaves out String-valued applications of declared functions (dag.h:613), so that not of an equation of such terms stays a not in the model where the code makes distinct, which has the same value. | The same rule induction as C79; one lemma for all constructors (call_str), by cases on the operator; the three tests on two literals by tests_exact of C11; literals computed rightly (FoldsRight) by the exactness theorems of C11; refuted on the others by computing the model. |
