{"id": "C01", "title": "Bitwise bit-vector folding is exact", "statement": "Folding bvnot, bvand, bvor, bvxor, bvnand, bvnor and bvxnor on literal operands of the same width returns the literal of that width whose value is the SMT-LIB result.", "quantifier": "every width w and every pair of w-bit values", "why_tests_cant": "width and values are unbounded; a test samples a few widths", "anchors": ["src/util.cpp:BitVectorUtils::bvNot", "src/util.cpp:bvAnd", "src/util.cpp:bvOr", "src/util.cpp:bvXor", "src/util.cpp:bvNand", "src/util.cpp:bvNor", "src/util.cpp:bvXnor"]}
{"id": "C02", "title": "Modular bit-vector arithmetic is exact (neg, add, mul)", "statement": "Folding bvneg, bvadd and bvmul on literals of the same width returns the literal whose value is the result modulo 2^w.", "quantifier": "every width and every pair of values", "why_tests_cant": "carry chains are as long as the width, which is unbounded", "anchors": ["src/util.cpp:BitVectorUtils::bvNeg", "src/util.cpp:bvAdd", "src/util.cpp:bvMul"]}
{"id": "C03", "title": "bvsub folding is exact", "statement": "Folding bvsub on literals of the same width returns x - y modulo 2^w.", "quantifier": "every width and every pair of values", "why_tests_cant": "borrow chains are unbounded; the faulty cases depend on bit patterns", "anchors": ["src/util.cpp:BitVectorUtils::bvSub"]}
{"id": "C04", "title": "Unsigned division and remainder follow SMT-LIB", "statement": "Folding bvudiv / bvurem on literals gives the natural-number quotient / remainder, all-ones / the dividend when the divisor is zero, and always a literal of the operands' width.", "quantifier": "every width and every pair of values", "why_tests_cant": "the long-division loop runs once per bit of an unbounded width", "anchors": ["src/util.cpp:BitVectorUtils::bvUdiv", "src/util.cpp:bvUrem", "src/util.cpp:bvUmod", "src/simp_parser.cpp:NT_BV_UDIV"]}
{"id": "C05", "title": "Signed division, remainder and modulus follow SMT-LIB", "statement": "Folding bvsdiv, bvsrem and bvsmod on literals gives the SMT-LIB result for every sign combination, the most negative value and a zero divisor.", "quantifier": "every width and every pair of values", "why_tests_cant": "the corner cases are sign and overflow combinations at every width", "anchors": ["src/util.cpp:BitVectorUtils::bvSdiv", "src/util.cpp:bvSrem", "src/util.cpp:bvSmod"]}
{"id": "C06", "title": "Shifts follow SMT-LIB", "statement": "Folding bvshl, bvlshr and bvashr on literals x, s of the same width shifts by the unsigned value of s, and returns a literal of the same width even when s is at least the width.", "quantifier": "every width, every x and every shift amount", "why_tests_cant": "shift amounts grow with the width", "anchors": ["src/util.cpp:BitVectorUtils::bvShl", "src/util.cpp:bvLshr", "src/util.cpp:bvAshr"]}
{"id": "C07", "title": "Structural bit-vector operations are exact", "statement": "concat, extract, repeat, zero_extend, sign_extend, rotate_left and rotate_right on literals return the literal of the SMT-LIB result width and value.", "quantifier": "every width, every value, every index / repetition / extension / rotation amount", "why_tests_cant": "indices and widths are unbounded", "anchors": ["src/util.cpp:BitVectorUtils::bvConcat", "src/util.cpp:bvExtract", "src/util.cpp:bvRepeat", "src/util.cpp:bvZeroExtend", "src/util.cpp:bvSignExtend", "src/util.cpp:bvRotateLeft", "src/util.cpp:bvRotateRight"]}
{"id": "C08", "title": "Bit-vector / integer conversions are mutually inverse", "statement": "bv2nat and bv2int read the unsigned and two's-complement value of a literal; nat2bv and int2bv of n at width w return the w-bit literal of n mod 2^w; converting there and back is the identity on values in range.", "quantifier": "every width and every integer", "why_tests_cant": "the integers and widths are unbounded", "anchors": ["src/util.cpp:BitVectorUtils::bvToNat", "src/util.cpp:bvToInt", "src/util.cpp:natToBv", "src/util.cpp:intToBv"]}
{"id": "C09", "title": "Bit-vector comparisons decide the SMT-LIB order", "statement": "bvult/ule/ugt/uge/slt/sle/sgt/sge on literals of the same width are folded to true exactly when the relation holds of the unsigned / signed values.", "quantifier": "every width and every pair of values", "why_tests_cant": "string comparison of digits must coincide with numeric order at every width", "anchors": ["src/util.cpp:BitVectorUtils::bvComp"]}
{"id": "C10", "title": "Every bit-vector fold returns a literal of the sort's width", "statement": "Whenever an operand-width-preserving bit-vector operation is folded on literals of width w, the produced literal has exactly w digits, so it is a value of the sort it is given.", "quantifier": "every operation, width and operand value", "why_tests_cant": "a width error appears only for particular operand values", "anchors": ["src/util.cpp:BitVectorUtils", "src/simp_parser.cpp:simp_oper"]}
{"id": "C11", "title": "String folding follows SMT-LIB", "statement": "str.substr, str.at, str.indexof, str.contains, str.prefixof, str.suffixof, str.replace, str.replace_all, str.rev and case conversion on literals compute the SMT-LIB value for every position, including negative and out-of-range ones.", "quantifier": "every string and every integer position", "why_tests_cant": "strings and positions are unbounded", "anchors": ["src/util.cpp:StringUtils"]}
{"id": "C12", "title": "Escaping a string and unescaping it gives the string back", "statement": "unescapeString(escapeString(s)) = s, and a string literal stored by the parser denotes the same characters as the literal the user wrote.", "quantifier": "every character sequence", "why_tests_cant": "all sequences of characters, including every control character and backslash combination", "anchors": ["src/util.cpp:ConversionUtils::escapeString", "src/util.cpp:ConversionUtils::unescapeString", "src/op_parser.cpp:mkConstStr"]}
{"id": "C13", "title": "Numeric tokens are classified and valued correctly", "statement": "A token is classified as an integer exactly when it is an optional sign followed by at least one digit, as a real exactly when it is a decimal with at least one digit; the printed form of every integer is classified as an integer.", "quantifier": "every token", "why_tests_cant": "all strings", "anchors": ["src/util.cpp:TypeChecker::isInt", "src/util.cpp:TypeChecker::isReal", "src/util.cpp:TypeChecker::isScientificNotation"]}
{"id": "C14", "title": "Integer helper functions compute the mathematical function", "statement": "gcd, lcm, factorial, power, primality and parity used to fold constants agree with the mathematical functions for every integer argument.", "quantifier": "every integer argument", "why_tests_cant": "unbounded integers, termination of loops", "anchors": ["src/util.cpp:MathUtils"]}
{"id": "C15", "title": "Operator names survive printing and re-parsing", "statement": "For every operator the parser accepts, printing the node kind built from the operator's name yields a name the parser maps back to the same kind.", "quantifier": "every operator name accepted by the parser", "why_tests_cant": "a relation between two independent tables that must hold for every entry", "anchors": ["include/kind.h:oper_key_map", "src/kind.cpp:kindToString", "src/kind.cpp:getOperKind"]}
{"id": "C16", "title": "Negating a comparison operator complements it", "statement": "getNegatedKind of an arithmetic, bit-vector, string or floating point comparison is a comparison that holds exactly when the original does not, and negating twice gives the original.", "quantifier": "every comparison operator and every pair of operand values (including NaN)", "why_tests_cant": "must hold for all operand values", "anchors": ["src/kind.cpp:getNegatedKind", "src/objective.cpp:getNegatedOperator"]}
{"id": "C17", "title": "Flipping a comparison operator swaps its operands", "statement": "getFlipKind of a comparison is the comparison that holds of (y,x) exactly when the original holds of (x,y), and flipping twice gives the original.", "quantifier": "every comparison operator and every pair of operand values", "why_tests_cant": "must hold for all operand values", "anchors": ["src/kind.cpp:getFlipKind", "src/objective.cpp:getFlipOperator"]}
{"id": "C18", "title": "Sort equality is an equivalence that separates different sorts", "statement": "Two sorts compare equal exactly when they denote the same SMT-LIB sort (same constructor, widths and component sorts); equality is reflexive, symmetric and transitive, and the printed sort determines it.", "quantifier": "every pair and triple of sorts, of any nesting depth", "why_tests_cant": "sorts nest without bound", "anchors": ["include/sort.h:Sort::operator==", "src/sort.cpp", "include/sort.h:SortManager"]}
{"id": "C19", "title": "Hash-consing: same structure if and only if same node", "statement": "After any history of node creations, two creation requests with the same kind, sort, name and children return the same node, requests that differ return different nodes, a node's index never changes and the node stored at an index is the node that was requested.", "quantifier": "every history of creation requests and every hash function", "why_tests_cant": "histories and hash collisions are unbounded", "anchors": ["src/dag.cpp:NodeManager::insertNodeToBucket", "src/dag.cpp:NodeManager::createNode", "include/dag.h:DAGNode::isEquivalentTo"]}
{"id": "C20", "title": "The variable table is functional over every history", "statement": "Declaring the same name again returns the same variable, different names give different variables, and after any sequence of declarations getVariable(name) returns exactly the variable declared under that name; renaming makes the old name unavailable.", "quantifier": "every history of declarations, look-ups and renames", "why_tests_cant": "histories are unbounded", "anchors": ["src/op_parser.cpp:mkVar", "src/op_parser.cpp:mkTempVar", "src/base_parser.cpp:getVariable", "src/base_parser.cpp:rename"]}
{"id": "C21", "title": "Traversal visits every reachable node exactly once", "statement": "Visiting an expression calls the visitor on every node reachable from it, never twice on the same node, and terminates on every DAG; the node count equals the number of reachable nodes.", "quantifier": "every finite DAG, with any sharing", "why_tests_cant": "DAG shapes are unbounded and may share exponentially", "anchors": ["src/visitor.cpp", "src/base_parser.cpp:getNodeCount", "src/conv_parser.cpp:collectVars", "src/conv_parser.cpp:hasSomeKinds"]}
{"id": "C22", "title": "Boolean constructors preserve meaning", "statement": "mkNot, mkAnd, mkOr, mkXor, mkImplies, mkIte, mkEq and mkDistinct return a term whose value under every assignment equals the SMT-LIB value of the operator applied to the operands.", "quantifier": "every list of well-sorted operands of any length and every assignment", "why_tests_cant": "operand lists and terms are unbounded, and simplification depends on their shape", "anchors": ["src/op_parser.cpp:mkNot", "src/op_parser.cpp:mkAnd", "src/op_parser.cpp:mkOr", "src/op_parser.cpp:mkXor", "src/op_parser.cpp:mkImplies", "src/op_parser.cpp:mkIte", "src/op_parser.cpp:mkEq", "src/op_parser.cpp:mkDistinct"]}
{"id": "C23", "title": "Negation of comparison atoms preserves meaning", "statement": "mkNot of an arithmetic (dis)equality or comparison, of any number of operands, denotes the negation of the atom.", "quantifier": "every atom with any number of operands and every assignment", "why_tests_cant": "n-ary chains of any length", "anchors": ["src/op_parser.cpp:negateComp", "src/op_parser.cpp:mkNot"]}
{"id": "C24", "title": "Arithmetic constructors preserve meaning", "statement": "mkAdd, mkMul, mkSub, mkNeg, mkLe, mkLt, mkGe, mkGt over integer operands return a term with the SMT-LIB value of the operator applied to the operands.", "quantifier": "every operand list and every assignment", "why_tests_cant": "operand lists and integers are unbounded", "anchors": ["src/op_parser.cpp:mkAdd", "src/op_parser.cpp:mkMul", "src/op_parser.cpp:mkSub", "src/op_parser.cpp:mkLe", "src/simp_parser.cpp:simp_oper"]}
{"id": "C25", "title": "Integer division folding follows SMT-LIB", "statement": "Folding (div a b), (mod a b), (abs a) and divisibility on integer literals yields the Euclidean result SMT-LIB prescribes and never fails on a zero divisor.", "quantifier": "every pair of integers", "why_tests_cant": "all sign combinations of unbounded integers", "anchors": ["src/simp_parser.cpp:NT_DIV_INT", "src/simp_parser.cpp:NT_MOD", "src/number.cpp:HighPrecisionInteger::operator/"]}
{"id": "C26", "title": "Array simplification preserves meaning", "statement": "Simplifying a select over a chain of stores, normalising a chain of stores, and deciding equality of two array terms never change the value of the term under any assignment.", "quantifier": "every store chain of any length, every index term and every assignment", "why_tests_cant": "aliasing between symbolic indices depends on the assignment", "anchors": ["src/simp_parser.cpp:rewriteSelect", "src/simp_parser.cpp:normalizeStoreChain", "src/simp_parser.cpp:areArraysEqual"]}
{"id": "C27", "title": "The rewriter preserves meaning and terminates", "statement": "rewrite(e) always terminates, and under every assignment has the same value as e.", "quantifier": "every expression and every assignment", "why_tests_cant": "expressions are unbounded, and the rules feed each other", "anchors": ["src/rewriter.cpp"]}
{"id": "C28", "title": "NNF conversion is an equivalence and produces NNF", "statement": "toNNF(e) has the same value as e under every assignment, and negation occurs only in front of variables and atoms that cannot absorb it.", "quantifier": "every Boolean expression of any depth and every assignment", "why_tests_cant": "formula depth and arity are unbounded", "anchors": ["src/conv_parser.cpp:toNNF"]}
{"id": "C29", "title": "DNF conversion is an equivalence and produces DNF", "statement": "toDNF(e) has the same value as e under every assignment and is a disjunction of conjunctions of literals.", "quantifier": "every Boolean expression and every assignment", "why_tests_cant": "formula depth and arity are unbounded; distribution is recursive", "anchors": ["src/conv_parser.cpp:toDNF", "src/conv_parser.cpp:toDNFEliminateAll", "src/conv_parser.cpp:applyDNFDistributiveLaw"]}
{"id": "C30", "title": "CNF (Tseitin) conversion is equisatisfiable with models preserved both ways", "statement": "Every assignment of the original variables extends to the fresh variables so that the definition clauses hold, and whenever they hold the returned literal has the value of the input formula.", "quantifier": "every Boolean expression and every assignment", "why_tests_cant": "formula depth and arity are unbounded", "anchors": ["src/conv_parser.cpp:toTseitinCNF", "src/conv_parser.cpp:toTseitinXor", "src/conv_parser.cpp:toTseitinEq", "src/conv_parser.cpp:toTseitinDistinct", "src/conv_parser.cpp:toCNF"]}
{"id": "C31", "title": "CNF output is in CNF over literals", "statement": "The result of toCNF is a conjunction of disjunctions of literals.", "quantifier": "every Boolean expression", "why_tests_cant": "shape must hold for formulas of any depth", "anchors": ["src/conv_parser.cpp:toCNF", "src/conv_parser.cpp:isCNF"]}
{"id": "C32", "title": "Atom and node replacement replaces every occurrence", "statement": "replaceAtoms / replaceNodes return the expression with every occurrence of a mapped node replaced, however the node is shared.", "quantifier": "every expression DAG and every replacement map", "why_tests_cant": "the outcome depends on sharing, which grows without bound", "anchors": ["src/conv_parser.cpp:replaceAtoms", "src/conv_parser.cpp:replaceNodes"]}
{"id": "C33", "title": "Splitting and binarising comparisons preserve meaning", "statement": "splitOp and binarizeOp return an expression with the same value as the input under every assignment, for comparisons with any number of operands.", "quantifier": "every expression, every operand count and every assignment", "why_tests_cant": "chains are n-ary", "anchors": ["src/conv_parser.cpp:splitOp", "src/conv_parser.cpp:binarizeOp"]}
{"id": "C34", "title": "Flattening nested conjunctions and disjunctions preserves meaning", "statement": "Eliminating nested top-level ANDs and nested ORs from a list of assertions preserves the conjunction of the list and terminates.", "quantifier": "every list of assertions and every assignment", "why_tests_cant": "nesting is unbounded", "anchors": ["src/conv_parser.cpp:eliminateTopContinuousAnd", "src/conv_parser.cpp:eliminateContinuousOr", "src/conv_parser.cpp:flattenDNF"]}
{"id": "C35", "title": "Evaluation under a model agrees with the semantics", "statement": "evaluate(e, m) returns a term whose value under every assignment that extends m equals the value of e, and returns a constant when m assigns every variable of e.", "quantifier": "every expression and every (partial) model", "why_tests_cant": "expressions and models are unbounded", "anchors": ["src/eval_parser.cpp:evaluate", "src/eval_parser.cpp:evaluateSimpleOp", "src/eval_parser.cpp:evaluateAnd"]}
{"id": "C36", "title": "Models behave like finite maps", "statement": "After any sequence of add/addVar/clearValues/clear, get(name) returns the last value added under the name (unknown if none), size is the number of distinct names, isFull/isEmpty say whether all/none have values, and the listing order is first-insertion order.", "quantifier": "every history of model operations", "why_tests_cant": "histories are unbounded", "anchors": ["src/model.cpp"]}
{"id": "C37", "title": "Substitution and function application have the meaning of replacement", "statement": "Applying a defined function to arguments, and substituting terms for variables, yields a term whose value equals the value of the body in the environment where parameters are bound to the argument values.", "quantifier": "every body, every argument list and every assignment", "why_tests_cant": "bodies nest without bound, binders may capture", "anchors": ["src/base_parser.cpp:applyFun", "src/base_parser.cpp:applyFunPostOrder", "src/base_parser.cpp:substitute"]}
{"id": "C38", "title": "let is evaluated with SMT-LIB (parallel) scoping", "statement": "Parsing a let yields the term in which every bound name stands for the term bound to it in the enclosing scope, including when a bound name shadows another.", "quantifier": "every nesting of let binders", "why_tests_cant": "nesting and shadowing patterns are unbounded", "anchors": ["src/base_parser.cpp:parseLet", "src/base_parser.cpp:parsePreservingLet"]}
{"id": "C39", "title": "Printing an expression is the recursive SMT-LIB rendering", "statement": "The iterative printer's output equals, for every expression, the recursive rendering (op arg1 ... argn), with balanced parentheses.", "quantifier": "every expression of any depth", "why_tests_cant": "depth is unbounded; the printer is a work-stack machine", "anchors": ["src/dag.cpp:dumpSMTLIB2_streaming"]}
{"id": "C40", "title": "Tokenising never runs past the input and skipping a command stops at its closing parenthesis", "statement": "Reading symbols, skipping white space/comments and skipping to the matching right parenthesis terminate within the input, count lines correctly, respect strings, quoted symbols and comments, and leave the cursor just after the matching parenthesis.", "quantifier": "every input text and every cursor position", "why_tests_cant": "inputs are unbounded", "anchors": ["src/base_parser.cpp:getSymbol", "src/base_parser.cpp:scanToNextSymbol", "src/base_parser.cpp:skipToRpar"]}
{"id": "C41", "title": "Printing then parsing gives the term back", "statement": "Reading back the printed form of an expression with the parser's tokeniser reproduces the same expression.", "quantifier": "every expression over printable symbols", "why_tests_cant": "all expressions", "anchors": ["src/dag.cpp:dumpSMTLIB2_streaming", "src/base_parser.cpp:getSymbol", "src/expr_parser.cpp"]}
{"id": "C42", "title": "checkSat's verdict is sound over every history", "statement": "Whatever sequence of assertions and checks was performed, a sat/unsat answer of checkSat is correct for the current set of assertions.", "quantifier": "every history of assert / checkSat calls", "why_tests_cant": "histories are unbounded; the verdict is cached", "anchors": ["src/base_parser.cpp:checkSat"]}
{"id": "C43", "title": "Interval set operations denote the set operations", "statement": "contains, isEmpty, intersection, unionWith, difference, isSubsetOf, isSupersetOf, isDisjointFrom and unionMulti agree with the corresponding operations on the sets of numbers denoted by the intervals.", "quantifier": "every pair (list) of intervals, open/closed/unbounded, and every number", "why_tests_cant": "all end points and closedness combinations", "anchors": ["src/interval.cpp"]}
{"id": "C44", "title": "Interval arithmetic over-approximates", "statement": "If x is in A and y is in B then x op y is in A op B for op in negation, addition, subtraction, multiplication, division, absolute value and integer powers.", "quantifier": "every pair of intervals and every pair of members", "why_tests_cant": "continuum of points and end point combinations", "anchors": ["src/interval.cpp:operator+", "src/interval.cpp:operator*", "src/interval.cpp:abs", "src/interval.cpp:divReal"]}
{"id": "C45", "title": "Counting and listing integers of an interval is exact", "statement": "getIntegers lists exactly the integers contained in a bounded interval and getIntervalIntCount is their number.", "quantifier": "every bounded interval", "why_tests_cant": "all end points and closedness combinations", "anchors": ["src/interval.cpp:getIntegers", "src/interval.cpp:getIntervalIntCount"]}
{"id": "C46", "title": "Mixed integer/real numbers form an ordered field fragment", "statement": "+, -, *, comparisons and the compound assignments of Number agree with exact arithmetic on the numbers denoted, whatever the mix of integer and real representations.", "quantifier": "every pair of numbers", "why_tests_cant": "all values and representation mixes", "anchors": ["src/number.cpp:Number"]}
{"id": "C47", "title": "Fresh variables are fresh", "statement": "A temporary variable created during a conversion is different, as a node and in print, from every variable of the user's problem and from every other temporary variable.", "quantifier": "every history of declarations and conversions", "why_tests_cant": "histories are unbounded", "anchors": ["src/op_parser.cpp:mkTempVar", "src/op_parser.cpp:mkVar"]}
{"id": "C48", "title": "Commutative argument sorting does not change meaning", "statement": "Sorting the operands of a commutative operator by hash keeps the same multiset of operands, makes the result independent of the order they were given in when hashes are distinct, and leaves the operator's value unchanged.", "quantifier": "every operand list, hash function and assignment", "why_tests_cant": "operand lists are unbounded; hand-written sorting networks for 2 and 3 elements", "anchors": ["src/op_parser.cpp:sortParams", "src/op_parser.cpp:isCommutative"]}
{"id": "C49", "title": "Quantifier scoping is respected", "statement": "Inside nested quantifiers a name refers to its innermost binder with that binder's sort, and after leaving a quantifier the outer binding is visible again.", "quantifier": "every nesting of quantifiers", "why_tests_cant": "nesting is unbounded", "anchors": ["src/base_parser.cpp:mkQuantVar", "src/base_parser.cpp:parseQuant"]}
{"id": "C50", "title": "Normalising an arithmetic atom preserves meaning", "statement": "Moving everything to the left hand side (a op b becomes a - b op 0) yields an atom with the same value under every assignment.", "quantifier": "every arithmetic atom and every assignment", "why_tests_cant": "terms and values are unbounded", "anchors": ["src/base_parser.cpp:arithNormalize"]}
{"id": "C51", "title": "Removing a node removes every occurrence", "statement": "remove(e, n) returns e with the operand n taken out of every conjunction/disjunction it occurs in, at any depth, and nothing else changed.", "quantifier": "every formula, node and sharing pattern", "why_tests_cant": "terms are unbounded and shared", "anchors": ["src/conv_parser.cpp:remove"]}
{"id": "C52", "title": "The parser reads the expression that is written", "statement": "Parsing the text of an expression yields the term the text denotes in SMT-LIB: operators with their operands in order and with their indices, quantifiers with their variables and sorts, let as a parallel abbreviation, constants and declared names as themselves; whatever white space and comments separate the tokens, and however deep the nesting.  The cursor ends just after the expression and no binding remains.", "quantifier": "every expression, every layout of its text, every scope", "why_tests_cant": "expressions and layouts are unbounded; let uses an explicit stack of states", "anchors": ["src/expr_parser.cpp:parseExpr", "src/base_parser.cpp:parseLet", "src/base_parser.cpp:parseQuant", "src/base_parser.cpp:mkExpr", "src/expr_parser.cpp:parseParams"]}
{"id": "C53", "title": "The parser reads the sort that is written", "statement": "Parsing the text of a sort (basic, bit-vector, floating point, array, declared or defined) yields that sort, whatever was parsed before, and the cursor ends just after it.", "quantifier": "every sort of any nesting, every layout, every history of sorts read before", "why_tests_cant": "sorts nest without bound and are cached by a text key", "anchors": ["src/base_parser.cpp:parseSort"]}
{"id": "C54", "title": "A symbol or constant token is read as what it writes; |x| and x are the same name", "statement": "A token that is the SMT-LIB spelling of a constant (numbers, bit-vectors, strings, rounding modes, special values) is read as that constant with its width; a declared name is read as its variable, and x and |x| are the same name; an undeclared name that is no constant is an error and creates nothing.", "quantifier": "every token and every content of the name tables", "why_tests_cant": "tokens and tables are unbounded", "anchors": ["src/expr_parser.cpp:parseConstFunc", "src/util.cpp:TypeChecker"]}
{"id": "C55", "title": "A constructor accepts exactly the well-sorted operands and gives the SMT-LIB sort", "statement": "Building a node from operands whose sorts fit the operator succeeds and the node has the sort SMT-LIB gives it (so does every term built bottom-up from well-sorted parts); operands whose sorts do not fit are refused.", "quantifier": "every operator, every operand list, every term built by nested constructor calls, every logic", "why_tests_cant": "widths, sorts, operand counts and nesting are unbounded", "anchors": ["src/op_parser.cpp:mkOper", "src/op_parser.cpp:mkConcat", "src/op_parser.cpp:mkExtract", "src/op_parser.cpp:mkFpAdd", "src/op_parser.cpp:mkSelect", "src/op_parser.cpp:mkAdd", "src/base_parser.cpp:getSort"]}
{"id": "C56", "title": "A script is recorded exactly: assertions, groups, names, declarations and definitions in order", "statement": "Parsing a script (from a file or a string, in any layout, with any comments) succeeds and afterwards the parser's getters return exactly what the script said: the assertions in their order with their groups and names, the soft assertions with weights and groups, the declared variables, functions and sorts, the definitions with their bodies, the logic, and whether check-sat, get-model and get-objectives were asked for; commands that only ask for output change nothing, text after exit is not read, and a script given in pieces is recorded like the whole.", "quantifier": "every script of any length, every layout, every way to cut it into pieces", "why_tests_cant": "scripts, histories and layouts are unbounded", "anchors": ["src/base_parser.cpp:parseCommand", "src/base_parser.cpp:parseSmtlib2File", "src/base_parser.cpp:parseStr", "src/op_parser.cpp:mkFuncDec", "src/op_parser.cpp:mkFuncDef", "src/op_parser.cpp:mkFuncRec", "src/op_parser.cpp:mkVar", "include/options.h:setLogic"]}
{"id": "C57", "title": "The objectives of a script are recorded as written", "statement": "minimize, maximize, define-objective and the commands for several objectives are recorded in their order with their direction, expression, comparison operator, group and parts; a name stands for the objective defined with it; without a comparison operator the one that belongs to the logic is taken.", "quantifier": "every script with any number of objectives, every order and number of attributes", "why_tests_cant": "scripts and attribute lists are unbounded", "anchors": ["src/opt_parser.cpp:parseSingleObj", "src/opt_parser.cpp:parseDefineObj", "src/opt_parser.cpp:parseMultiObj", "src/opt_parser.cpp:parseAssertSoft", "src/objective.cpp:getCompareOperator", "src/objective.cpp:getDefaultCompareOperator"]}
{"id": "C58", "title": "Interval functions enclose every value of the real function", "statement": "For every elementary function of the interval class (logarithms, exponential, square root, trigonometric, hyperbolic and their inverses) the returned interval holds the exact real value f(x) for every real x of the argument in the domain of f, whatever the working precision; an argument outside the domain is reported by an exception.", "quantifier": "every interval (open, closed, unbounded), every real of it, every precision", "why_tests_cant": "reals, intervals and precisions are unbounded; rounding errors show only at rare arguments", "anchors": ["src/interval.cpp:sqrt", "src/interval.cpp:ln", "src/interval.cpp:exp", "src/interval.cpp:sin", "src/interval.cpp:cos", "src/interval.cpp:tan", "src/interval.cpp:asin", "src/interval.cpp:acos", "src/interval.cpp:acosh", "src/interval.cpp:atanh", "src/number.cpp:sqrt", "src/number.cpp:asech"]}
{"id": "C59", "title": "Interval powers, integer division and remainder enclose every value", "statement": "pow, pow2, divInt and mod of intervals return an interval holding the result for every choice of members on which it is defined, and throw only when some choice is undefined.", "quantifier": "every interval and exponent or divisor", "why_tests_cant": "intervals and numbers are unbounded", "anchors": ["src/interval.cpp:pow", "src/interval.cpp:pow2", "src/interval.cpp:divInt", "src/interval.cpp:mod"]}
{"id": "C60", "title": "Collecting variables and atoms returns exactly those that occur, visiting shared nodes once", "statement": "collectVars returns exactly the variables that occur below the expressions, collectAssignableVars those an assignment must give, collectAtoms the atoms, collectGroundAtoms the atoms of the top-level conjunctions, and hasSomeKinds whether a node of one of the kinds occurs, each visiting every shared node at most once; isAtom holds exactly of the formulas without Boolean structure.", "quantifier": "every node graph reachable by creations, with any sharing, any set collected before", "why_tests_cant": "graphs and sharing patterns are unbounded; a tree walk would be exponential on shared graphs", "anchors": ["src/conv_parser.cpp:collectVars", "src/conv_parser.cpp:collectAssignableVars", "src/conv_parser.cpp:collectAtoms", "src/conv_parser.cpp:collectGroundAtoms", "src/conv_parser.cpp:hasSomeKinds", "include/dag.h:isAtom"]}
{"id": "C61", "title": "The tables between atoms and the variables of the clauses are inverse", "statement": "After conversions to conjunctive normal form, the Boolean variable of an atom and the atom of a Boolean variable can be looked up, are inverse to each other, and getCNFAtoms and getCNFBoolVars list each of them once.", "quantifier": "every history of conversions, every hash order", "why_tests_cant": "histories and hash orders are unbounded", "anchors": ["src/conv_parser.cpp:getCNFAtom", "src/conv_parser.cpp:getCNFBoolVar", "src/conv_parser.cpp:getCNFAtoms", "src/conv_parser.cpp:getCNFBoolVars", "src/conv_parser.cpp:isCNFTAbstraction"]}
{"id": "C62", "title": "A Value is the last thing stored in it, and nothing else", "statement": "A variable of type Value holds exactly what was last stored in it (string, number, interval, Boolean): the getter of that type returns it, every other getter throws, and no operator or later statement can see what the variable held before; a statement that throws leaves it unchanged; operators on values of types they do not fit throw.", "quantifier": "every sequence of constructions, stores, assignments, compound assignments, increments and decrements, some of them failing", "why_tests_cant": "the object keeps one member per type, so stale contents depend on the whole history", "anchors": ["include/value.h:Value", "src/value.cpp:setValue", "src/value.cpp:getStringValue", "src/value.cpp:operator+", "src/value.cpp:operator++", "src/value.cpp:newValue"]}
{"id": "C63", "title": "Values compare as their contents", "statement": "== holds exactly for values of the same type and content, != is its negation; <, <=, >, >= are a total order on strings (byte order), numbers and Booleans, and on intervals < says that every point of the first lies below every point of the second; comparing different types throws.", "quantifier": "every two (three) values", "why_tests_cant": "strings, numbers and intervals are unbounded", "anchors": ["src/value.cpp:operator==", "src/value.cpp:operator<", "src/value.cpp:operator<=", "src/value.cpp:operator>", "src/value.cpp:operator>="]}
{"id": "C64", "title": "String functions and conversions of values", "statement": "replace replaces every occurrence and returns; substr, repeatStr, concatStr, sortStr, reverse, unique, trim, toLower and toUpper return the text their name says for every string; toNumber and toBoolean invert each other on Booleans and say whether a number is not zero.", "quantifier": "every string, number and Boolean", "why_tests_cant": "texts and numbers are unbounded", "anchors": ["src/value.cpp:replace", "src/value.cpp:substr", "src/value.cpp:repeatStr", "src/value.cpp:sortStr", "src/value.cpp:unique", "src/value.cpp:trim", "src/value.cpp:toNumber", "src/value.cpp:toBoolean"]}
{"id": "C65", "title": "Expanding lets", "statement": "expandLet of a let expression (either form) ends, after at most two rounds of its loop for every distinct node of the body, and returns the body with the definition put in for every let variable; no let variable is left, a body without let variables is returned itself, the value of the result is the value of the let under every interpretation, and anything that is not a let is returned unchanged.", "quantifier": "for every let expression, shared or nested to any depth, and every interpretation of its operators and variables", "why_tests_cant": "Sharing makes the tree of a let exponentially larger than its graph; tests try a few nestings and compare printed text, not values.", "anchors": ["src/eval_parser.cpp:Parser::expandLet", "src/op_parser.cpp:Parser::mkInternalOper"]}
{"id": "C66", "title": "Which operators evaluation evaluates", "statement": "evaluate treats every operator kind by a rule that rebuilds that operator from the values of all its operands, reading no operand that does not exist; so for every expression the result has the value of the expression under every interpretation that extends the model, and under a model that gives every variable a constant the result is a constant.", "quantifier": "for every operator kind, every expression and every model", "why_tests_cant": "There are over two hundred kinds dispatched through three tables; tests evaluate a few dozen and mostly with complete models.", "anchors": ["src/eval_parser.cpp:Parser::evaluate", "src/eval_parser.cpp:Parser::evaluateSimpleOp", "src/op_parser.cpp:Parser::getArity"]}
{"id": "C67", "title": "A written problem is read back as the same problem", "statement": "For every parser state, the text of dumpSMT2() is accepted by a new parser, from a string or from a file, and the new parser has the same logic, the same variables with their sorts, the same functions with their parameters, result sorts and bodies, and the same assertions in the same order.", "quantifier": "all problems: any numbers of sorts, variables, functions and assertions of any size, any iteration order of the hash tables", "why_tests_cant": "A test writes and reads a few problems; the property is about all of them, and about the interplay of printer, command loop and constructors.", "anchors": ["src/base_parser.cpp: Parser::dumpSMT2, getVariables, getFunctions, parseStr, parseSmtlib2File, parseCommand", "src/dag.cpp: dumpSMTLIB2, dumpFuncDef, dumpFuncRec, dumpFuncDec"]}
{"id": "C68", "title": "The text of a model is read as the model", "statement": "For every text that consists of define-fun definitions in parentheses, with or without the word model, in any layout, parseModel returns the model whose variables are the defined constants in the order of their first definitions, each with the value defined last; with only_declared exactly those that are declared variables. Definitions with parameters are declared as functions and other entries are skipped. Assertions, soft assertions, objectives, logic and the text being read by the caller are left as they were, and the variables not known before are declared with the sort of their first definition.", "quantifier": "all texts of any number of definitions with values of any depth, all layouts, all parser states between two commands, both settings of only_declared and of preserving lets", "why_tests_cant": "texts, values and parser states are unbounded", "anchors": ["src/base_parser.cpp:Parser::parseModel", "src/base_parser.cpp:Parser::parseModelSymbolName", "src/model.cpp:Model::add"]}
{"id": "C69", "title": "A written model is read back as the same model", "statement": "parseModel, given the text that toString returns for a model, gives a model with the same variables in the same order and the same values.", "quantifier": "all models: any number of variables, values of any depth", "why_tests_cant": "the number of variables and the values are unbounded", "anchors": ["src/model.cpp:Model::toString", "src/base_parser.cpp:Parser::parseModel"]}
{"id": "C70", "title": "Expressions in one variable are recognised", "statement": "isUnit(e) returns, and is true exactly if no two different variables occur in e; getUnitVar(e) is x exactly if x and no other variable occurs in e, and the null node otherwise; isUnitAtom(e) is true exactly of the atoms that are unit; the value of e depends on getUnitVar(e) only.", "quantifier": "all expression graphs the node manager can hold, with any sharing, size and depth; all interpretations and assignments", "why_tests_cant": "the graphs are unbounded, and walks over shared graphs are right on small trees even if the visited set is wrong", "anchors": ["src/base_parser.cpp:Parser::isUnit", "src/base_parser.cpp:Parser::getUnitVar", "src/base_parser.cpp:Parser::isUnitAtom"]}
{"id": "C71", "title": "The parser's tables stay consistent and only grow", "statement": "Whatever text is read to its end, everything recorded before is kept, in order and before anything new. After every sequence of texts, files, declarations and definitions through the API and removals of functions: every soft assertion has one weight, groups name existing assertions, a name has one entry, getFunctions returns (does not throw), in order, the functions introduced and not removed, and it lists exactly the declared functions; removeFuns removes exactly the given functions and returns how many it removed.", "quantifier": "all texts, grammatical or not, and all sequences of operations of any length", "why_tests_cant": "histories and texts are unbounded, and a test only sees the tables after a few commands", "anchors": ["src/base_parser.cpp:Parser::parseCommand", "src/base_parser.cpp:Parser::parseStr", "src/base_parser.cpp:Parser::getFunctions", "src/base_parser.cpp:Parser::removeFuns", "src/op_parser.cpp:Parser::mkFuncDec"]}
{"id": "C72", "title": "Every option has the value asked for last", "statement": "After any sequence of setOption calls (with a text, an integer, a double or a bool) and of the typed setters, each option (keep_let, keep_division, precision, float_evaluate, expand_functions, expand_recursive_functions) reads back the value given in the last call about it, or its documented default if there was none; calls about other options do not disturb it, and a call that throws changes nothing.", "quantifier": "all histories of option calls, all keys and values, all overloads", "why_tests_cant": "histories are unbounded and any call may interfere with any option; a test sees a few", "anchors": ["include/options.h: setOption, setKeepLet, setKeepDivision, setEvaluatePrecision, setEvaluateUseFloating, setExpandFunctions, setExpandRecursiveFunctions", "src/base_parser.cpp: Parser::setOption (four overloads)"]}
{"id": "C73", "title": "Operating on intervals by operator kind, and in place", "statement": "Interval::operate with a unary operator gives an interval that holds the operator's real function at every real of the argument (or throws exactly when the argument leaves the domain); operate with two operands gives an interval that holds the result for every pair of members; and on intervals it is the intersection and or an interval holding both; kinds without an interval meaning throw. The compound assignments +=, -=, *=, /= change the interval into what the operator returns.", "quantifier": "every operator kind, every interval (open, closed, unbounded, empty), every number and every rounding of the reals", "why_tests_cant": "a table of forty operators over a continuum of intervals", "anchors": ["src/interval.cpp: Interval::operate (three overloads), operator+=, operator-=, operator*=, operator/=, log(Interval)"]}
{"id": "C74", "title": "A real constant keeps the value it was made from", "statement": "A constant node stores text only: mkConstReal writes its argument (a high-precision real, a double, an integer, a number, a token) and every later use reads the value back from that text. Integers are kept exactly (to the precision); between 10^-7 and 10^6 the value is rounded to 17 decimals, so a value with at most 17 decimals is kept; from 10^6 the value is rounded to 17 significant digits; a double is rounded to 6 decimals; a decimal token is kept to the precision and any other token is refused. Violated: a nonzero value below 10^-8, a non-integer from 10^17 - 1/2 on, an infinity or NaN is written in a form that reads as no value and counts as 0 afterwards, so folding a product of tiny constants gives a constant equal to 0.0; a double below 5*10^-7 becomes 0.", "quantifier": "every real value, every precision whose rounding is monotone and idempotent, every decimal exponent MPFR may report near a power of ten, every decimal text", "why_tests_cant": "the loss depends on the size and digits of the value; tests use small decimals, which are kept", "anchors": ["src/op_parser.cpp: mkConstReal", "src/number.cpp: HighPrecisionReal::toString", "include/dag.h: DAGNode constructor", "src/base_parser.cpp: toReal", "src/simp_parser.cpp: simp_oper"]}
{"id": "C75", "title": "Folding an operator of numeric constants keeps the value", "statement": "When a constructor (mkAdd, mkSub, mkMul, mkDivReal, mkDivInt, mkPow, mkLog, mkSqrt, mkSin, …, mkLt, mkEq, …) is applied to numeric constants and returns a constant instead of an application, the constant stands for the value of the operator on the numbers the operands stand for, and where the operator has no value there the application is kept. Arithmetic and comparison of integer constants are exact; a division that is not an integer is kept by default; rounding operators are exact. Fails for: integer quotients beyond 32 bits, quotients rounded to an integer, irrational roots (folded to a decimal by default), small results (zero), arguments outside a function's domain (a std::domain_error leaves the constructor), to_int (a Real constant) and is_int (false for 2.0).", "quantifier": "every operator, every pair of constants, every option setting, every precision", "why_tests_cant": "The failures sit at sizes and roundings a table of examples does not reach (32 bits, 10^-8, the precision), and the claim quantifies over all numbers and precisions.", "anchors": ["src/simp_parser.cpp simp_oper(NODE_KIND, node)", "src/simp_parser.cpp simp_oper(NODE_KIND, node, node)", "src/op_parser.cpp mkOper", "src/number.cpp HighPrecisionReal::toInt", "include/options.h evaluate_use_floating, keep_division_if_not_divisible"]}
{"id": "C76", "title": "Keeping lets and expanding them give the same term", "statement": "The option parsing_preserve_let only changes the shape of the result, not its meaning. For one and the same expression text, parsing with the option on (lets kept as let variables and a chain) and parsing with it off (values put in place of the names) either both succeed or both fail in the same way, and when they succeed, putting the values in place of the let variables in the first result gives the second; consequently both have the same value under every interpretation that sees through lets. This needs every let name to be bound once, by no quantifier as well, and used only inside its let: with the option on, a let name wins over a quantifier variable of the same name inside the let, and stays visible after its let up to the end of the outermost let.", "quantifier": "every expression tree of any depth, every set of node constructors that respect the relation, every state of the let numbering", "why_tests_cant": "The two modes are separate readers; agreement is about every nesting of lets, applications and quantifiers, and the failures need a name to be reused at a particular place.", "anchors": ["src/base_parser.cpp: parsePreservingLet", "src/base_parser.cpp: parseLet", "src/expr_parser.cpp: parseExpr", "src/op_parser.cpp: mkLetBindVar, mkLetChain", "include/options.h: parsing_preserve_let"]}
{"id": "C77", "title": "Reading any text ends", "statement": "Whatever the text is, well formed or not, cut off in the middle or not, and whatever was read before, parseStr, parseSmtlib2File and mkExpr come to an answer: a result, an error exit, an exception, or reading past the end of the buffer; they never loop for ever. The number of rounds of the reading loops is bounded by the length of the text times a constant plus the largest arity among the declared sorts, and each expression uses up at least one character. It is not bounded by the length of the text alone: the arity given to declare-sort is converted from int to size_t, so that (declare-sort A -1) followed by (A) takes 2^64 rounds.", "quantifier": "every character sequence as text (as a string or as a file), every state of the parser, both let modes", "why_tests_cant": "Termination is about all texts; the loops of the reader have no bounds of their own, and fuzzing can only show that the texts tried ended.", "anchors": ["src/base_parser.cpp: parseStr, parseSmtlib2File, parseCommand, parseSort, getSymbol, scanToNextSymbol, skipToRpar", "src/expr_parser.cpp: parseExpr", "src/base_parser.cpp: parseLet, parsePreservingLet, parseQuant", "src/opt_parser.cpp"]}
{"id": "C78", "title": "The integer class computes what it says", "statement": "factorial(n) and fibonacci(n) end with the n-th factorial and Fibonacci number for every unsigned long; the conversions of an integer to int, long, unsigned long and long long return the value when it is in range and throw otherwise; sqrt and root are rounded towards zero and throw outside their domains; division, remainder and divisibility belong together and throw on zero; every integer written in any base from 2 to 62 is read back as itself; toInteger of a real is the nearest integer; converting a real to int or long long does not silently change an integer value; Number::zero() is neutral for addition.", "quantifier": "all integers, all bases, all unsigned long arguments, all real values including NaN and the infinities, all rounding formats", "why_tests_cant": "The values are unbounded, the boundaries are at 2^31, 2^63 and 2^64, and the wrap of the loop counter needs 2^64 rounds to show.", "anchors": ["src/number.cpp: HighPrecisionInteger::factorial, fibonacci, toInt, toLong, toULong, toLongLong, sqrt, safeSqrt, root, operator/, operator%, isDivisibleBy, toString, HighPrecisionInteger(string, base)", "src/number.cpp: HighPrecisionReal::toInt, toInteger, toLongLong", "src/number.cpp: Number::toInteger, zero, one"]}
{"id": "C79", "title": "A formula that is read means what is written", "statement": "For every text that writes a term over declared constants and functions with the Boolean connectives, ite, equality, comparisons, arithmetic, numerals, decimals, (parallel) lets and annotations, the node that mkExpr makes has, under every assignment, the value that SMT-LIB gives to the written term; the same for every assertion of a script, with the declarations and the logic in force where it stands.", "quantifier": "all written terms of any size and nesting, in any layout; all assignments; all declarations; all scripts", "why_tests_cant": "It joins the reader, symbol lookup, operator dispatch and the simplifications of the constructors; a wrong value shows only for particular combinations of operands and assignments.", "anchors": ["src/expr_parser.cpp: parseExpr, parseOper, parseConstFunc", "src/base_parser.cpp: mkExpr, parseStr, parseLet, applyFun", "src/op_parser.cpp: mkAnd, mkOr, mkXor, mkImplies, mkNot, mkEq, mkDistinct, mkIte, mkAdd, mkSub, mkMul, mkLe, mkLt, mkGe, mkGt, mkConstInt, mkConstReal, mkVar, mkFuncDec"]}
{"id": "C80", "title": "A bit-vector formula that is read means what is written", "statement": "For every text that writes a term with binary, hexadecimal and (_ bvN w) constants and the operators of the theory of fixed-size bit-vectors (bitwise, arithmetic, division, shifts, comparisons, bvcomp, concat, extract, repeat, rotations, extensions), mixed with the core theory, declared constants and functions and lets, the node that mkExpr makes has the value that SMT-LIB gives to the written term, under every assignment that gives the operators their meaning; the same for every assertion of a script.", "quantifier": "all written terms of any size and nesting, all widths below 2^64-2, all values of the constants, any number of operands of the associative operators; all assignments; all scripts", "why_tests_cant": "Widths and values are unbounded; constants are folded at every operator, so a wrong fold shows only where constants meet, and operands are reordered before a node is made.", "anchors": ["src/op_parser.cpp: mkBvNot, mkBvNeg, mkBvAnd, mkBvOr, mkBvXor, mkBvNand, mkBvNor, mkBvXnor, mkBvAdd, mkBvSub, mkBvMul, mkBvUdiv, mkBvUrem, mkBvSdiv, mkBvSrem, mkBvSmod, mkBvShl, mkBvLshr, mkBvAshr, mkBvComp, mkBvConcat, mkBvExtract, mkBvRepeat, mkBvZeroExt, mkBvSignExt, mkBvRotateLeft, mkBvRotateRight, mkBvUlt, mkBvUle, mkBvUgt, mkBvUge, mkBvSlt, mkBvSle, mkBvSgt, mkBvSge, mkConstBv, mkOper, mkInternalOper", "src/simp_parser.cpp: simp_oper", "src/expr_parser.cpp: parseExpr, parseOper, parseConstFunc", "src/base_parser.cpp: mkExpr, parseStr"]}
{"id": "C81", "title": "Evaluating a formula that was read gives the value of what is written", "statement": "For every text that writes a term over declared constants and functions (core theory, linear and non-linear arithmetic, literals of bit-vectors, lets, annotations) and every model, evaluate of the node that mkExpr makes is a node that has the value SMT-LIB gives to the written term, under every assignment that gives the constants the values the model has for them; if no declared function occurs and the model assigns a literal to every declared constant, the result is the literal of that value: true or false for a formula. The same for every assertion of a script.", "quantifier": "all written terms of any size and nesting, all scripts, all models (partial and complete), all assignments that follow the model, every order in which operands and constants are sorted", "why_tests_cant": "Reading simplifies and reorders the formula before evaluation sees it, and evaluation rebuilds nodes through the same constructors; whether a node is evaluated at all depends on whether something below it changed, so errors need particular combinations of constants, variables and models.", "anchors": ["src/expr_parser.cpp: parseExpr, parseOper, parseConstFunc", "src/base_parser.cpp: mkExpr, parseStr", "src/op_parser.cpp: mkAnd, mkOr, mkXor, mkImplies, mkEq, mkDistinct, mkIte, mkAdd, mkMul, mkSub, mkNeg, mkLe, mkLt, mkGe, mkGt, mkNot", "src/eval_parser.cpp: evaluate, evaluateSimpleOp, evaluateAnd, evaluateOr, evaluateXor, evaluateEq, evaluateDistinct, evaluateIte", "include/model.h: Model"]}
{"id": "C82", "title": "A call of a defined function means its definition", "statement": "A script that defines functions with define-fun (with parameters, not recursive, one definition calling functions before it) and is parsed with lets expanded: the formula returned for an assertion contains no call of a defined function and has, under every assignment of the declared constants and functions, the value that the assertion as written has when each call of a defined function takes the value of its body with the parameters standing for the values of the arguments; and evaluating the formula in any model that the assignment follows keeps that value.", "quantifier": "all scripts of the grammar, with any number of define-fun commands, parameters and calls nested at any depth; all terms, assignments and models", "why_tests_cant": "calls are expanded by copying the body below the nodes of the arguments, simplifying again at every node; whether this keeps the meaning depends on every body, every argument and every assignment", "anchors": ["src/base_parser.cpp:933-988", "src/base_parser.cpp:1857-1915", "src/base_parser.cpp:1917-2009", "src/expr_parser.cpp:598-661", "src/expr_parser.cpp:780-800", "src/op_parser.cpp:237-328"]}
{"id": "C83", "title": "Division, remainder, absolute value and conversions: a formula that is read means what is written", "statement": "For every text that writes a term with div, mod, /, abs, to_real, to_int and is_int, mixed with the core theory, integer and real arithmetic, declared constants and functions and lets, the node that mkExpr makes has the value that SMT-LIB gives to the written term (div and mod by Euclidean division, to_int the greatest integer that is not above, division by zero any value the assignment gives it), under every assignment that gives the operators their meaning; the same for every assertion of a script.", "quantifier": "all written terms of any size and nesting over integers and reals, all values of the constants, all assignments, all scripts", "why_tests_cant": "Values are unbounded and the constructors fold constants, test sorts and choose node sorts; a wrong rounding, sign or lost operand shows only for particular combinations of operands, signs and logics.", "anchors": ["src/op_parser.cpp: mkDivInt, mkDivReal, mkMod, mkAbs, mkToInt, mkToReal, mkIsInt, mkAdd, mkSub, mkMul, mkNeg, mkIte, mkOper, getSort", "src/simp_parser.cpp: simp_oper", "src/number.cpp: Integer::operator/, Integer::operator%, HighPrecisionReal::toInt", "src/expr_parser.cpp: parseExpr, parseOper, parseConstFunc", "src/base_parser.cpp: mkExpr, parseStr"]}
{"id": "C84", "title": "Strings: a formula that is read means what is written", "statement": "For every text that writes a term with string literals and str.len, str.++, str.at, str.substr, str.prefixof, str.suffixof, str.contains, str.indexof, str.replace, str.replace_all, str.is_digit, str.to_code, str.from_code, str.to_int and str.from_int, mixed with the core theory, arithmetic, declared constants and functions and lets, the node that mkExpr makes has the value that SMT-LIB gives to the written term, under every assignment that gives the operators their meaning; the same for every assertion of a script.", "quantifier": "all written terms of any size and nesting, all strings, all values of the constants, all assignments, all scripts", "why_tests_cant": "Strings are unbounded; the constructors test sorts, fold literals through text functions and choose the kind and the sort of the node; a swapped operand, a wrong kind or a wrong sort shows only for particular nestings of operators and literals.", "anchors": ["src/op_parser.cpp: mkStrLen, mkStrConcat, mkStrSubstr, mkStrPrefixof, mkStrSuffixof, mkStrIndexof, mkStrCharat, mkStrReplace, mkStrReplaceAll, mkStrContains, mkStrIsDigit, mkStrFromInt, mkStrToInt, mkStrToCode, mkStrFromCode, mkConstStr, mkOper", "src/simp_parser.cpp: simp_oper", "src/util.cpp: strReplaceAll", "src/expr_parser.cpp: parseExpr, parseOper, parseConstFunc", "src/base_parser.cpp: mkExpr, parseStr"]}
