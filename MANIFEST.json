{
 "claims": [
  {
   "property": "C01",
   "status": "proved",
   "theorems": [
    "SMT.BV.fold_bitwise_exact",
    "SMT.BV.fold_not_exact",
    "SMT.BV.fold_many_exact"
   ],
   "note": "all widths, all operands, binary and n-ary"
  },
  {
   "property": "C02",
   "status": "proved",
   "theorems": [
    "SMT.BV.fold_neg_exact",
    "SMT.BV.fold_add_exact",
    "SMT.BV.fold_mul_exact",
    "SMT.BV.fold_many_exact"
   ],
   "note": "all widths, all operands"
  },
  {
   "property": "C03",
   "status": "partial",
   "theorems": [
    "SMT.BV.fold_sub_correct_iff_partial",
    "SMT.BV.fold_sub_actual",
    "SMT.BV.fold_sub_violated"
   ],
   "note": "the code is wrong: bvsub folds to (x+y) xor (x or y); proved correct iff both operands are zero"
  },
  {
   "property": "C04",
   "status": "partial",
   "theorems": [
    "SMT.BV.fold_udiv_correct_iff_partial",
    "SMT.BV.fold_udiv_actual",
    "SMT.BV.fold_udiv_violated",
    "SMT.BV.fold_urem_partial",
    "SMT.BV.fold_urem_actual",
    "SMT.BV.fold_urem_violated"
   ],
   "note": "code wrong for quotients > 1 and most remainders; exact characterisation proved"
  },
  {
   "property": "C05",
   "status": "partial",
   "theorems": [
    "SMT.BV.fold_sdiv_correct_iff_partial",
    "SMT.BV.fold_sdiv_violated",
    "SMT.BV.fold_srem_exact",
    "SMT.BV.fold_smod_correct_iff_partial",
    "SMT.BV.fold_smod_violated"
   ],
   "note": "bvsrem fully right; bvsdiv/bvsmod characterised exactly, wrong on the complement"
  },
  {
   "property": "C06",
   "status": "partial",
   "theorems": [
    "SMT.BV.fold_shift_common",
    "SMT.BV.fold_shr_partial",
    "SMT.BV.fold_shl_partial",
    "SMT.BV.fold_shl_violated",
    "SMT.BV.fold_lshr_violated",
    "SMT.BV.fold_shift_throws_violated"
   ],
   "note": "shift amount is read in base ten and bvshl keeps the wrong digits; exact behaviour proved for all operands"
  },
  {
   "property": "C07",
   "status": "partial",
   "theorems": [
    "SMT.BV.fold_concat_exact",
    "SMT.BV.fold_extract_exact",
    "SMT.BV.util_repeat_exact",
    "SMT.BV.util_zero_extend_exact",
    "SMT.BV.util_sign_extend_exact",
    "SMT.BV.util_rotate_partial",
    "SMT.BV.util_rotate_violated"
   ],
   "note": "all exact except rotation by more than the width, which throws"
  },
  {
   "property": "C08",
   "status": "proved",
   "theorems": [
    "SMT.BV.bv2nat_exact",
    "SMT.BV.bv2int_exact",
    "SMT.BV.nat2bv_exact",
    "SMT.BV.int2bv_exact",
    "SMT.BV.conversions_round_trip"
   ],
   "note": ""
  },
  {
   "property": "C09",
   "status": "proved",
   "theorems": [
    "SMT.BV.fold_cmp_exact",
    "SMT.BV.fold_bvcomp_violated"
   ],
   "note": "the eight order comparisons are exact; bvcomp (not part of the property) always folds to false"
  },
  {
   "property": "C10",
   "status": "proved",
   "theorems": [
    "SMT.BV.fold_width",
    "SMT.BV.mkConstBv_hex_violated"
   ],
   "note": "for folding; the constant constructor on hex text ignores the width (separate theorem)"
  },
  {
   "property": "C11",
   "status": "partial",
   "theorems": [
    "SMT.Str.tests_exact",
    "SMT.Str.replace_exact_partial",
    "SMT.Str.replaceAll_exact_partial",
    "SMT.Str.replaceAll_violated",
    "SMT.Str.indexof_exact_partial",
    "SMT.Str.substr_exact_partial",
    "SMT.Str.at_exact_partial",
    "SMT.Str.positions_violated",
    "SMT.Str.rev_concat_case_exact_partial",
    "SMT.Str.order_exact_partial",
    "SMT.Str.order_violated",
    "SMT.Str.len_violated",
    "SMT.Str.code_violated",
    "SMT.Str.escaped_violated"
   ],
   "note": "containment tests exact on all texts; the rest exact on texts whose stored form is the text itself and on in-range positions; negative and out-of-range positions, an empty pattern, length, codes and escaped texts refuted"
  },
  {
   "property": "C12",
   "status": "partial",
   "theorems": [
    "SMT.Str.unescape_escape_partial",
    "SMT.Str.unescape_escape_violated",
    "SMT.Str.stored_plain_partial",
    "SMT.Str.stored_denotes_partial",
    "SMT.Str.stored_violated"
   ],
   "note": "exact for printable ASCII and the named control characters; every other character comes back as NUL (refuted for each of them)"
  },
  {
   "property": "C13",
   "status": "partial",
   "theorems": [
    "SMT.Tok.isInt_exact_partial",
    "SMT.Tok.isInt_violated",
    "SMT.Tok.isReal_exact_partial",
    "SMT.Tok.isReal_violated",
    "SMT.Tok.printed_exact",
    "SMT.Tok.value_exact_partial",
    "SMT.Tok.isSci_exact_partial"
   ],
   "note": "exact except for the tokens without a digit; a plus sign makes constant creation throw (refuted)"
  },
  {
   "property": "C14",
   "status": "partial",
   "theorems": [
    "SMT.Math.pow2_exact_partial",
    "SMT.Math.pow2_violated",
    "SMT.Math.gcd_exact_partial",
    "SMT.Math.gcd_violated",
    "SMT.Math.lcm_exact_partial",
    "SMT.Math.lcm_violated",
    "SMT.Math.isPrime_exact",
    "SMT.Math.parity_exact",
    "SMT.Math.fact_exact",
    "SMT.Math.nonliteral_aborts"
   ],
   "note": "exact for nonnegative arguments; sign, zero and negative exponents refuted"
  },
  {
   "property": "C15",
   "status": "partial",
   "theorems": [
    "SMT.Kinds.name_roundtrip_partial",
    "SMT.Kinds.printed_name_partial",
    "SMT.Kinds.smtlib_names_exact",
    "SMT.Kinds.unary_roundtrip",
    "SMT.Kinds.name_roundtrip_violated",
    "SMT.Kinds.table_unusable"
   ],
   "note": "every accepted name except bv2int, int2bv, root-obj (printed UNKNOWN_KIND) and str.indexof_re (printed str.indexof), which are refuted"
  },
  {
   "property": "C16",
   "status": "partial",
   "theorems": [
    "SMT.Kinds.negated_exact_partial",
    "SMT.Kinds.negated_exact_nofp",
    "SMT.Kinds.negated_involutive",
    "SMT.Kinds.negated_violated",
    "SMT.Kinds.negatedOperator_agrees"
   ],
   "note": "exact for every comparison and all operands outside floating point; floating point without NaN; NaN and fp.eq refuted"
  },
  {
   "property": "C17",
   "status": "partial",
   "theorems": [
    "SMT.Kinds.flip_exact_partial",
    "SMT.Kinds.flip_involutive_partial",
    "SMT.Kinds.flip_violated",
    "SMT.Kinds.flipComp_violated",
    "SMT.Kinds.flipComp_eq",
    "SMT.Kinds.flipOperator_exact",
    "SMT.Kinds.strictOperator_exact",
    "SMT.Kinds.compareOperator_roundtrip"
   ],
   "note": "exact except bvslt (flipped to bvsge, refuted) and fp.eq; the objective operators are all exact; flipComp on atoms keeps the kind (refuted)"
  },
  {
   "property": "C18",
   "status": "partial",
   "theorems": [
    "SMT.Sorts.eqS_refl",
    "SMT.Sorts.eqS_symm",
    "SMT.Sorts.eqS_exact_partial",
    "SMT.Sorts.eqS_violated",
    "SMT.Sorts.eqS_trans_partial",
    "SMT.Sorts.print_exact",
    "SMT.Sorts.manager_exact_partial",
    "SMT.Sorts.manager_violated"
   ],
   "note": "printing determines the sort for all sorts; equality exact except that it ignores bit-vector widths and array components (refuted) and IntOrReal breaks transitivity"
  },
  {
   "property": "C19",
   "status": "partial",
   "theorems": [
    "SMT.Store.equiv_exact",
    "SMT.Store.hashcons_exact",
    "SMT.Store.index_stable",
    "SMT.Store.size_exact",
    "SMT.Store.roundingMode_violated"
   ],
   "note": "for any hash function and any history; rounding-mode constants get a fresh sort object at every request and so a fresh node (refuted)"
  },
  {
   "property": "C20",
   "status": "partial",
   "theorems": [
    "SMT.Store.declared_stays",
    "SMT.Store.declared_new",
    "SMT.Store.declared_distinct",
    "SMT.Store.undeclared_not_found",
    "SMT.Store.rename_new",
    "SMT.Store.rename_old_violated",
    "SMT.Store.rename_clash_violated"
   ],
   "note": "declarations exact over every history; after renaming the old name still finds the variable and a clash is not detected (refuted)"
  },
  {
   "property": "C21",
   "status": "proved",
   "theorems": [
    "SMT.Store.walk_exact",
    "SMT.Store.walk_again",
    "SMT.Store.nodeCount_exact"
   ],
   "note": "any node graph reachable by creations; also a visitor used several times"
  },
  {
   "property": "C22",
   "status": "partial",
   "theorems": [
    "SMT.Term.mkAnd_sound",
    "SMT.Term.mkOr_sound",
    "SMT.Term.mkXor_sound",
    "SMT.Term.mkImplies_sound",
    "SMT.Term.mkIte_sound",
    "SMT.Term.mkNot_sound_partial",
    "SMT.Term.mkEq2_sound",
    "SMT.Term.mkEqV_sound_partial",
    "SMT.Term.mkEqV_true_violated",
    "SMT.Term.mkDistinct2_sound_partial",
    "SMT.Term.mkDistinct2_not_violated",
    "SMT.Term.mkDistinctV_sound_partial",
    "SMT.Term.mkDistinctV_false_violated"
   ],
   "note": "and/or/xor/=>/ite exact for all operand lists; = and distinct proved where the code is right, and refuted where it drops a literal true/false operand or strips one negation"
  },
  {
   "property": "C23",
   "status": "partial",
   "theorems": [
    "SMT.Term.mkNot_cmp",
    "SMT.Term.mkNot_eq2_partial",
    "SMT.Term.mkNot_eq3_violated",
    "SMT.Term.mkNot_distinct3_violated"
   ],
   "note": "binary atoms exact; three or more operands of =/distinct refuted"
  },
  {
   "property": "C24",
   "status": "partial",
   "theorems": [
    "SMT.Term.mkAdd_sound",
    "SMT.Term.mkAdd_zeros_violated",
    "SMT.Term.mkMul_sound_partial",
    "SMT.Term.mkMul_zero_violated",
    "SMT.Term.mkSub_sound",
    "SMT.Term.mkNeg_sound",
    "SMT.Term.mkCmp2_sound",
    "SMT.Term.mkCmpV_sound"
   ],
   "note": "exact for every operand list when the logic names an arithmetic theory; under (set-logic ALL) products with a zero literal are wrong"
  },
  {
   "property": "C25",
   "status": "partial",
   "theorems": [
    "SMT.Math.div_exact_partial",
    "SMT.Math.mod_exact_partial",
    "SMT.Math.abs_exact",
    "SMT.Math.divisible_exact",
    "SMT.Math.div_violated",
    "SMT.Math.zero_violated"
   ],
   "note": "characterised for all integers: right exactly when the dividend is nonnegative or a multiple of the divisor; zero divisor throws"
  },
  {
   "property": "C26",
   "status": "partial",
   "theorems": [
    "SMT.Arr.select_sound_partial",
    "SMT.Arr.select_newest_exact",
    "SMT.Arr.select_violated",
    "SMT.Arr.store_sound_partial",
    "SMT.Arr.store_nodup",
    "SMT.Arr.store_violated",
    "SMT.Arr.eq_true_sound_partial",
    "SMT.Arr.eq_true_violated",
    "SMT.Arr.eq_false_sound_partial",
    "SMT.Arr.eq_false_violated",
    "SMT.Arr.eq3_true_partial",
    "SMT.Arr.eq3_violated",
    "SMT.Arr.arraysEqual_total_partial",
    "SMT.Arr.arraysEqual_collision_violated"
   ],
   "note": "sound for chains of any length under every assignment separating the different index nodes (always so for literals); aliasing indices, finite index sorts, non-variable bases, three operands and hash collisions refuted"
  },
  {
   "property": "C27",
   "status": "proved",
   "theorems": [
    "SMT.Rewrite.rewrite_sound",
    "SMT.Rewrite.rewrite_sound_rules",
    "SMT.Rewrite.rewrite_fixpoint"
   ],
   "note": "default rules and any value-preserving user rules, with the memo table, any round bound; two rounds reach a fixpoint.  Binders are covered only as opaque operators; Int and Real literals are one sort of numbers"
  },
  {
   "property": "C28",
   "status": "partial",
   "theorems": [
    "SMT.Conv.toNNF_sound_partial",
    "SMT.Conv.toNNF_shape_partial",
    "SMT.Conv.toNNFL_sound_partial",
    "SMT.Conv.toNNF_implies3_violated"
   ],
   "note": "equivalence and shape for every formula whose => and negatable relations are binary; three-operand => refuted"
  },
  {
   "property": "C29",
   "status": "partial",
   "theorems": [
    "SMT.Conv.toDNF_total_partial",
    "SMT.Conv.toDNF_sound_partial",
    "SMT.Conv.toDNF_shape_partial",
    "SMT.Conv.toDNF_collapse_violated",
    "SMT.Conv.toDNF_nested_violated",
    "SMT.Conv.toDNF_shared_violated",
    "SMT.Conv.toDNF_sortEq_violated"
   ],
   "note": "terminates, keeps the value and has no or below and whenever no product collapses during distribution; the remaining cases are refuted (collapsed product, nested and, shared xor, equations of user sorts)"
  },
  {
   "property": "C30",
   "status": "partial",
   "theorems": [
    "SMT.Conv.toCNF_complete_partial",
    "SMT.Conv.toCNF_sound_partial",
    "SMT.Conv.toCNF_implies_violated",
    "SMT.Conv.toCNFL_total",
    "SMT.Conv.toCNFL_complete_partial",
    "SMT.Conv.toCNFL_sound_partial"
   ],
   "note": "both directions, for one formula and for a list of assertions, for every formula in which => has two operands and does not occur below xor, = or distinct (where its clauses are wrong, refuted), over any atoms and any hash-set order"
  },
  {
   "property": "C31",
   "status": "partial",
   "theorems": [
    "SMT.Conv.toCNF_shape_partial",
    "SMT.Conv.toCNF_notXor_violated",
    "SMT.Conv.toCNF_sharedAtom_violated"
   ],
   "note": "for atom-free formulas with no negated xor/=/distinct and only variables negated inside them; negated xor and shared atoms refuted"
  },
  {
   "property": "C32",
   "status": "partial",
   "theorems": [
    "SMT.Conv.replaceNodes_all_partial",
    "SMT.Conv.replaceAtoms_all_partial",
    "SMT.Conv.replaceNodes_sound_partial",
    "SMT.Conv.replaceAtoms_sound_partial",
    "SMT.Conv.replaceNodes_shared_violated"
   ],
   "note": "every occurrence when no node is met again below an otherwise unchanged node; value kept in all cases; the shared case is refuted"
  },
  {
   "property": "C33",
   "status": "partial",
   "theorems": [
    "SMT.Conv.splitOp_sound_partial",
    "SMT.Conv.splitLemma_valid",
    "SMT.Conv.splitOp_three_violated",
    "SMT.Conv.binarizeOp_sound_partial"
   ],
   "note": "any operator set, any operand count for binarising; splitting needs binary comparisons (three operands refuted); terms with => excluded because rebuilding => simplifies it wrongly"
  },
  {
   "property": "C34",
   "status": "proved",
   "theorems": [
    "SMT.Conv.elimTop_total",
    "SMT.Conv.elimTop_sound",
    "SMT.Conv.elimTop_flat"
   ],
   "note": "terminates on every list, keeps the conjunction, result is flat"
  },
  {
   "property": "C35",
   "status": "partial",
   "theorems": [
    "SMT.Eval.evaluate_sound_partial",
    "SMT.Eval.evaluate_const_partial",
    "SMT.Eval.evaluate_implies_violated",
    "SMT.Eval.evaluate_distinct_violated",
    "SMT.Eval.evaluate_eq_violated",
    "SMT.Eval.evaluate_uf_violated",
    "SMT.Eval.evaluate_lt_violated",
    "SMT.Eval.evaluate_eq3_violated",
    "SMT.Eval.Fold.nary_sound_partial",
    "SMT.Eval.Fold.first_sound_partial",
    "SMT.Eval.Fold.first_two_partial",
    "SMT.Eval.Fold.nary_two_partial",
    "SMT.Eval.Fold.bv_nary_partial",
    "SMT.Eval.Fold.bv_sub_partial",
    "SMT.Eval.Fold.max_min_partial",
    "SMT.Eval.Fold.real_div_partial",
    "SMT.Eval.Fold.bv_udiv_violated",
    "SMT.Eval.Fold.bv_nand_violated",
    "SMT.Eval.Fold.divInt_sound_partial",
    "SMT.Eval.Fold.div_null_violated",
    "SMT.Eval.Fold.div_neg_violated",
    "SMT.Eval.Fold.div_mul_violated",
    "SMT.Eval.Fold.cat_sound_partial",
    "SMT.Eval.Fold.cat_violated"
   ],
   "note": "sound for every expression with two-operand relations and implications under every assignment extending the model, constant under total models of such expressions; the bit-vector, max/min and division groups on values; the remaining cases (three-operand =>, mixed literals, opaque literals, uninterpreted functions, div of a literal, concatenation of literals) refuted"
  },
  {
   "property": "C36",
   "status": "partial",
   "theorems": [
    "SMT.Mdl.model_exact_partial",
    "SMT.Mdl.addName_violated"
   ],
   "note": "every history in which add(name, value) is used only for names already in the model; otherwise it overwrites the first variable's value (refuted)"
  },
  {
   "property": "C37",
   "status": "partial",
   "theorems": [
    "SMT.Subst.applyFun_sound_partial",
    "SMT.Subst.applyFun_kept",
    "SMT.Subst.applyFun_arity",
    "SMT.Subst.applyFun_global_violated",
    "SMT.Subst.applyFun_rec_violated",
    "SMT.Subst.substitute_sound_partial",
    "SMT.Subst.substitute_bound_violated",
    "SMT.Subst.substitute_capture_violated"
   ],
   "note": "any nesting of calls, any arguments and assignments, for bodies over their parameters only, and substitution in binder-free terms; a body with any other variable ends the process, calls of unexpanded recursive functions get an extra operand, bound variables are substituted and captured (refuted)"
  },
  {
   "property": "C38",
   "status": "partial",
   "theorems": [
    "SMT.Scope.scoping_sound_partial",
    "SMT.Scope.sequential_violated",
    "SMT.Scope.leak_violated",
    "SMT.Scope.inner_violated",
    "SMT.Scope.shadow_violated",
    "SMT.Scope.capture_violated"
   ],
   "note": "correct for every expression whose let names are pairwise different and fresh, in both let modes, over every sequence of parses; shadowing is refuted in five ways"
  },
  {
   "property": "C39",
   "status": "partial",
   "theorems": [
    "SMT.Print.print_exact_partial",
    "SMT.Print.print_balanced_partial",
    "SMT.Print.printFun_exact_partial",
    "SMT.Print.printDec_exact",
    "SMT.Print.print_algebraic_violated",
    "SMT.Print.print_root_violated",
    "SMT.Print.print_bindings_violated",
    "SMT.Print.print_arity_violated"
   ],
   "note": "every expression of any depth whose nodes have the number of children of their kind; also function definitions and declarations; algebraic numbers (missing parenthesis), interval roots (double space), binding lists printed alone (first binding lost) refuted"
  },
  {
   "property": "C40",
   "status": "partial",
   "theorems": [
    "SMT.Lex.scan_exact",
    "SMT.Lex.skipToRpar_matching",
    "SMT.Lex.skipToRpar_exact",
    "SMT.Lex.skip_command",
    "SMT.Lex.getSymbol_symbol_partial",
    "SMT.Lex.getSymbol_quoted",
    "SMT.Lex.getSymbol_string",
    "SMT.Lex.getSymbol_inside",
    "SMT.Lex.nls_lf",
    "SMT.Lex.getSymbol_end_violated",
    "SMT.Lex.getSymbol_sci_violated",
    "SMT.Lex.getSymbol_adjacent_violated",
    "SMT.Lex.line_crlf_violated"
   ],
   "note": "every text and position: exact skipping, tokens and line counts, never past the input when there is a token left; reading at the end of the input, scientific notation, a comment, string or quoted symbol directly after a symbol, and CRLF line ends are refuted"
  },
  {
   "property": "C41",
   "status": "partial",
   "theorems": [
    "SMT.Parse.round_trip_partial",
    "SMT.Parse.round_let_partial",
    "SMT.Parse.let_variables_local",
    "SMT.Parse.rebound_let_violated",
    "SMT.Parse.rl_round",
    "SMT.Parse.rt_round",
    "SMT.Parse.to_fp_unsigned_violated",
    "SMT.Parse.unreadable_violated",
    "SMT.Parse.round_epsilon_violated"
   ],
   "note": "for every lawful family of node constructors and every expression of any depth whose nodes are what their constructors return: the printed text parses and rebuilding calls return the same node; in the default (let-preserving) mode also for let chains of any shape and depth whose bound names are pairwise different (round_let_partial); MAX/MIN, root-of and algebraic numbers excluded; refuted for to_fp_unsigned, int2bv/bv2int, coth, max, min, epsilon"
  },
  {
   "property": "C42",
   "status": "partial",
   "theorems": [
    "SMT.Check.unsat_sound_partial",
    "SMT.Check.sat_sound_partial",
    "SMT.Check.first_check_violated",
    "SMT.Check.stale_sat_violated",
    "SMT.Check.pop_ignored_violated"
   ],
   "note": "unsat answers sound over every history of assertions and checks once the stored result is initialised; uninitialised result, stale sat and ignored pop refuted"
  },
  {
   "property": "C43",
   "status": "partial",
   "theorems": [
    "SMT.Num.Interval.isEmpty_exact",
    "SMT.Num.Interval.contains_exact",
    "SMT.Num.Interval.isSubsetOf_exact",
    "SMT.Num.Interval.isSubsetEqOf_exact",
    "SMT.Num.Interval.isSupersetOf_partial",
    "SMT.Num.Interval.isSupersetOf_violated",
    "SMT.Num.Interval.isDisjointFrom_partial",
    "SMT.Num.Interval.isDisjointFrom_violated",
    "SMT.Num.Interval.isIntersectingWith_exact",
    "SMT.Num.Interval.intersection_exact",
    "SMT.Num.Interval.unionWith_partial",
    "SMT.Num.Interval.unionWith_violated",
    "SMT.Num.Interval.unionMulti_partial",
    "SMT.Num.Interval.unionMulti_disjoint",
    "SMT.Num.Interval.unionMulti_violated",
    "SMT.Num.Interval.difference_partial",
    "SMT.Num.Interval.difference_violated",
    "SMT.Num.Interval.interval_compare_exact"
   ],
   "note": "emptiness, membership, subset, intersection, overlap exact for all intervals; superset, disjointness, union and difference exact on the stated cases and refuted on the rest (touching ends, gaps, unbounded ends)"
  },
  {
   "property": "C44",
   "status": "partial",
   "theorems": [
    "SMT.Num.linear_sound_partial",
    "SMT.Num.addI_rounded",
    "SMT.Num.addI_rounding_violated",
    "SMT.Num.mulN_sound_partial",
    "SMT.Num.mulN_violated",
    "SMT.Num.absI_sound_partial",
    "SMT.Num.absI_violated",
    "SMT.Num.mulI_closed_partial",
    "SMT.Num.mulI_positive_partial",
    "SMT.Num.mulI_square_violated",
    "SMT.Num.mulI_tie_violated",
    "SMT.Num.mulI_unbounded_violated",
    "SMT.Num.divN_sound_partial",
    "SMT.Num.divI_closed_partial",
    "SMT.Num.divI_zero_end_violated",
    "SMT.Num.powI_sound_partial",
    "SMT.Num.powI_violated"
   ],
   "note": "over-approximation proved for exact (unrounded) reals in the stated cases; the rounded and unbounded cases refuted"
  },
  {
   "property": "C45",
   "status": "partial",
   "theorems": [
    "SMT.Num.getIntegers_partial",
    "SMT.Num.getIntegers_violated",
    "SMT.Num.getIntegers_diverges_violated",
    "SMT.Num.intCount_partial",
    "SMT.Num.intCount_violated"
   ],
   "note": "closed or integral ends; open fractional ends refuted"
  },
  {
   "property": "C46",
   "status": "partial",
   "theorems": [
    "SMT.Num.compare_exact_partial",
    "SMT.Num.compare_violated",
    "SMT.Num.arith_exact_partial",
    "SMT.Num.arith_rounded",
    "SMT.Num.div_exact_partial",
    "SMT.Num.asg_partial",
    "SMT.Num.asg_violated",
    "SMT.Num.inc_exact_partial",
    "SMT.Num.floor_exact"
   ],
   "note": "exact when the real representation holds the operands; with rounding the result is the rounding of the exact result; NaN and mixed compound assignment refuted"
  },
  {
   "property": "C47",
   "status": "partial",
   "theorems": [
    "SMT.Store.temp_fresh_node_partial",
    "SMT.Store.temp_fresh_print_partial",
    "SMT.Store.temp_print_violated",
    "SMT.Store.temp_after_rename_violated"
   ],
   "note": "as nodes always, in print when the user's names do not have the form of a temporary name; the clash is refuted"
  },
  {
   "property": "C48",
   "status": "proved",
   "theorems": [
    "SMT.Order.sortParams_perm",
    "SMT.Order.sortParams_sorted",
    "SMT.Order.sortParams_canonical",
    "SMT.Order.sortParams_collision",
    "SMT.Order.stored_value"
   ],
   "note": "any hash, any operand list, any correct std::sort"
  },
  {
   "property": "C49",
   "status": "partial",
   "theorems": [
    "SMT.Scope.scoping_sound_partial",
    "SMT.Scope.rebind_violated",
    "SMT.Scope.lost_violated",
    "SMT.Scope.param_violated",
    "SMT.Scope.capture_violated",
    "SMT.Scope.fun_over_param_violated"
   ],
   "note": "correct for every expression whose quantifiers do not rebind a name in scope; rebinding is refuted"
  },
  {
   "property": "C50",
   "status": "partial",
   "theorems": [
    "SMT.Norm.arithNormalize_sound_partial",
    "SMT.Norm.arithNormalize_normal_partial",
    "SMT.Norm.arithNormalize_cmp",
    "SMT.Norm.arithNormalize_cmp_form",
    "SMT.Norm.arithNormalize_cmp_idem",
    "SMT.Norm.arithNormalize_drops_operands",
    "SMT.Norm.arithNormalize_nested_let",
    "SMT.Norm.arithNormalize_eq_grows"
   ],
   "note": "value kept under every assignment for every let-free term whose relations have two operands, given that array simplification keeps values; chained relations lose operands, a nested let is a null pointer, equations grow (refuted)"
  },
  {
   "property": "C51",
   "status": "partial",
   "theorems": [
    "SMT.Conv.remove_partial",
    "SMT.Conv.remove_nested_violated"
   ],
   "note": "exact for operands of the top node; a removal further down is lost (refuted)"
  },
  {
   "property": "C52",
   "status": "partial",
   "theorems": [
    "SMT.Parse.expr_reads_partial",
    "SMT.Parse.layout_partial",
    "SMT.Parse.mkExpr_reads_partial",
    "SMT.Parse.scopes_closed",
    "SMT.Parse.earlier_names_irrelevant",
    "SMT.Parse.expr_fuel",
    "SMT.Parse.reading_violated",
    "SMT.Parse.placeholder_violated"
   ],
   "note": "every expression of any depth and any layout whose let names are fresh; the tree handed to the constructors is the one written.  Shadowing lets, attributes other than :named, and comments glued to symbols are outside; two of them refuted"
  },
  {
   "property": "C53",
   "status": "partial",
   "theorems": [
    "SMT.Parse.sort_reads_partial",
    "SMT.Parse.goodDecl",
    "SMT.Parse.parseSort_fuel",
    "SMT.Parse.sort_violated"
   ],
   "note": "every sort over names, declared or defined by define-sort, that do not look like the internal cache keys; a user sort named like a key, e.g. BV_8, is confused with it (refuted)"
  },
  {
   "property": "C54",
   "status": "partial",
   "theorems": [
    "SMT.Leaf.literal_reads_partial",
    "SMT.Leaf.quoted_same_partial",
    "SMT.Leaf.declared_reads",
    "SMT.Leaf.constant_only_partial",
    "SMT.Leaf.unknown_name_aborts",
    "SMT.Leaf.epsilon_violated",
    "SMT.Leaf.epsion_reads",
    "SMT.Leaf.bound_bars_violated",
    "SMT.Leaf.both_declared_violated",
    "SMT.Leaf.odd_violated"
   ],
   "note": "constants and global names; refuted for epsilon, bound variables written in bars, and x, |x| declared both"
  },
  {
   "property": "C55",
   "status": "partial",
   "theorems": [
    "SMT.Typing.accepts_wellsorted_partial",
    "SMT.Typing.term_sort_partial",
    "SMT.Typing.rejects_illsorted_partial",
    "SMT.Typing.rejects_illsorted_bits_partial",
    "SMT.Typing.rejects_illsorted_many_partial",
    "SMT.Typing.rejects_illsorted_fp_partial",
    "SMT.Typing.extend_violated",
    "SMT.Typing.ceil_violated",
    "SMT.Typing.zeros_violated",
    "SMT.Typing.product_violated",
    "SMT.Typing.illsorted_accepted_violated",
    "SMT.Typing.max_violated"
   ],
   "note": "completeness for every operator and every term except zero_extend, sign_extend, ceil and sums/products with literal 0/1 in a logic without arithmetic; soundness for the operators that check their operands; extension widths, the sort of ceil, sums of zeros, unchecked bit-vector widths, equalities of different sorts and max/min refuted"
  },
  {
   "property": "C56",
   "status": "partial",
   "theorems": [
    "SMT.Script.file_recorded_partial",
    "SMT.Script.str_recorded_partial",
    "SMT.Script.pieces_recorded_partial",
    "SMT.Script.script_recorded",
    "SMT.Script.broken_rejected_partial",
    "SMT.Script.commands_abort_violated",
    "SMT.Script.commands_lost_violated",
    "SMT.Script.empty_text_violated"
   ],
   "note": "every script of any length and layout over assert, assert-soft, declare-*, define-*, set-logic, output commands, objectives and exit, whose names are new; redeclarations, `:named` before `:id`, push/pop/reset, check-sat-assuming, definitions of declared functions, some logics, data types and parametric define-sort are outside and refuted"
  },
  {
   "property": "C57",
   "status": "partial",
   "theorems": [
    "SMT.Script.objectives_recorded_partial",
    "SMT.Script.file_recorded_partial",
    "SMT.Script.objectives_violated",
    "SMT.Script.comparison_violated"
   ],
   "note": "every script: minimize, maximize, define-objective, lex/pareto/box-optimize, minmax, maxmin; of :epsilon and :M only their presence; maxsat/minsat without expression, optimize, groups behind the list, unknown names and default comparisons of mixed logics refuted"
  },
  {
   "property": "C58",
   "status": "partial",
   "theorems": [
    "SMT.Num.logs_enclose",
    "SMT.Num.exp_encloses",
    "SMT.Num.increasing_enclose",
    "SMT.Num.sqrt_encloses_partial",
    "SMT.Num.sqrt_zero_violated",
    "SMT.Num.number_sqrt_violated",
    "SMT.Num.asin_encloses",
    "SMT.Num.acosh_encloses",
    "SMT.Num.atanh_encloses_partial",
    "SMT.Num.atanh_violated",
    "SMT.Num.cosh_encloses",
    "SMT.Num.acos_violated",
    "SMT.Num.acos_rounded_partial",
    "SMT.Num.acot_violated",
    "SMT.Num.coth_violated",
    "SMT.Num.number_asech_violated",
    "SMT.Num.tan_encloses_partial",
    "SMT.Num.tan_violated",
    "SMT.Num.tan_unbounded",
    "SMT.Num.cosh_range",
    "SMT.Num.cos_encloses_partial",
    "SMT.Num.sin_encloses_partial",
    "SMT.Num.sin_cos_unbounded",
    "SMT.Num.sin_violated",
    "SMT.Num.cos_violated",
    "SMT.Num.recip_encloses_partial",
    "SMT.Num.recip_hull",
    "SMT.Num.acsch_encloses_partial",
    "SMT.Num.asech_encloses_partial",
    "SMT.Num.acsc_encloses_partial",
    "SMT.Num.asec_rounded_partial",
    "SMT.Num.acoth_encloses_partial",
    "SMT.Num.sech_rounded_partial",
    "SMT.Num.csch_rounded_partial",
    "SMT.Num.sec_rounded_partial",
    "SMT.Num.csc_rounded_partial",
    "SMT.Num.cot_rounded_partial",
    "SMT.Num.reciprocal_border_violated",
    "SMT.Num.acsch_rounding_violated",
    "SMT.Num.sech_rounding_violated",
    "SMT.Num.atan2_rounded_partial",
    "SMT.Num.atan2_number_rounded_partial",
    "SMT.Num.atan2_encloses_partial",
    "SMT.Num.atan2_pi_violated",
    "SMT.Num.atan2_number_violated"
   ],
   "note": "for every rounding: logarithms, exp, atan, sinh, tanh, asinh, cosh, asin, acosh fully; sqrt off zero, atanh off the ends, tan on a branch, sin/cos on closed intervals in [0, 9/2]; refuted for sqrt of 0, acos, acot, coth, tan over a pole, sin/cos of open intervals, atanh of (-1,1), Number::sqrt, Number::asech.  The functions that go through a reciprocal (cot, sec, csc, sech, csch, asec, acsc, acoth, asech, acsch) enclose their values up to the rounding of the reciprocal, and their rounding is refuted (reciprocal_border_violated ...).  atan2: bounds every angle up to the rounding of pi (full enclosure when pi rounds away from zero, refuted when it rounds towards zero); refuted for a negative number and an interval ending at zero from below"
  },
  {
   "property": "C59",
   "status": "partial",
   "theorems": [
    "SMT.Num.powNegI_sound",
    "SMT.Num.powFracI_encloses_partial",
    "SMT.Num.powFracI_violated",
    "SMT.Num.pow2_encloses_partial",
    "SMT.Num.divIntN_sound_partial",
    "SMT.Num.divIntN_integers_partial",
    "SMT.Num.divIntI_sound_partial",
    "SMT.Num.divIntN_open_violated",
    "SMT.Num.divIntN_negative_violated",
    "SMT.Num.modN_sound_partial",
    "SMT.Num.modN_violated",
    "SMT.Num.modI_sound_partial",
    "SMT.Num.modI_violated",
    "SMT.Num.powN_cases",
    "SMT.Num.powII_point_partial",
    "SMT.Num.powII_rounded_partial",
    "SMT.Num.powII_throws",
    "SMT.Num.powII_violated"
   ],
   "note": "negative integer powers in exact arithmetic fully, positive fractional powers of bounded intervals and powers of two for every rounding; divInt of closed bounded intervals, mod of nonnegative members; the rest refuted.  Positive integer powers are in C45.  pow(Interval): points above 1 with exact or widened ends fully, positive intervals up to rounding; points below 1, powers at open ends and bases reaching zero refuted"
  },
  {
   "property": "C60",
   "status": "partial",
   "theorems": [
    "SMT.Walk.collectVars_exact",
    "SMT.Walk.collectVars_linear",
    "SMT.Walk.collectVars_determine",
    "SMT.Walk.collectAssignableVars_exact",
    "SMT.Walk.collectAtoms_exact",
    "SMT.Walk.collectGroundAtoms_exact",
    "SMT.Walk.collectGroundAtoms_implied",
    "SMT.Walk.hasSomeKinds_exact",
    "SMT.Walk.isAtom_complete_partial",
    "SMT.Walk.isAtom_sound",
    "SMT.Walk.var_kinds",
    "SMT.Walk.isAtom_app",
    "SMT.Walk.isAtom_kinds",
    "SMT.Walk.isAtom_violated",
    "SMT.Walk.assignable_uf_violated"
   ],
   "note": "all walks exact on every shared graph; isAtom misses some predicates (refuted, so collectAtoms misses those atoms)"
  },
  {
   "property": "C61",
   "status": "partial",
   "theorems": [
    "SMT.AtomMaps.getCNFAtom_exact",
    "SMT.AtomMaps.isTAbstraction_exact",
    "SMT.AtomMaps.boolVar_atom_round",
    "SMT.AtomMaps.boolVar_total",
    "SMT.AtomMaps.getCNFAtoms_sound_partial",
    "SMT.AtomMaps.getCNFAtoms_exact",
    "SMT.AtomMaps.getCNFAtoms_violated",
    "SMT.AtomMaps.getCNFBoolVars_violated",
    "SMT.AtomMaps.boolVar_again_violated"
   ],
   "note": "lookups exact and inverse over every history; the listings lose atoms depending on the hash order (refuted)"
  },
  {
   "property": "C62",
   "status": "partial",
   "theorems": [
    "SMT.Value.getters_exact",
    "SMT.Value.stores_exact",
    "SMT.Value.history_exact",
    "SMT.Value.stale_invisible",
    "SMT.Value.logic_exact",
    "SMT.Value.un_exact",
    "SMT.Value.bare_violated",
    "SMT.Value.newValue_violated"
   ],
   "note": "full refinement over every history; refuted: a Boolean value made from its type name alone is uninitialised, newValue(long) truncates, newValue(literal) is the Boolean true"
  },
  {
   "property": "C63",
   "status": "partial",
   "theorems": [
    "SMT.Value.eq_exact_partial",
    "SMT.Value.order_exact",
    "SMT.Value.less_order",
    "SMT.Value.interval_less_exact",
    "SMT.Value.order_types",
    "SMT.Value.compare_violated"
   ],
   "note": "equality and total order proved for contents that are numbers other than NaN; refuted for values without content, NaN, and > of overlapping intervals"
  },
  {
   "property": "C64",
   "status": "partial",
   "theorems": [
    "SMT.Value.replace_exact",
    "SMT.Value.replace_violated",
    "SMT.Value.substr_exact_partial",
    "SMT.Value.substr_violated",
    "SMT.Value.repeat_exact",
    "SMT.Value.concat_exact",
    "SMT.Value.sort_exact",
    "SMT.Value.reverse_exact",
    "SMT.Value.unique_exact",
    "SMT.Value.trim_exact_partial",
    "SMT.Value.trim_violated",
    "SMT.Value.case_exact",
    "SMT.Value.convert_exact"
   ],
   "note": "all functions exact on strings; refuted: replace with an empty pattern never ends, substr at the end throws, trim of non-ASCII is undefined behaviour"
  },
  {
   "property": "C65",
   "status": "partial",
   "theorems": [
    "SMT.LetExp.expandLet_exact",
    "SMT.LetExp.expandLet_ends",
    "SMT.LetExp.expandLet_other",
    "SMT.LetExp.expand_value_partial",
    "SMT.LetExp.expand_free",
    "SMT.LetExp.expandLet_uf_violated"
   ],
   "note": "proved for every body in which no application of a named function has a let variable below it; refuted there: the name is replaced by that of the kind"
  },
  {
   "property": "C66",
   "status": "partial",
   "theorems": [
    "SMT.EvalDisp.evaluate_value",
    "SMT.EvalDisp.evaluate_constant",
    "SMT.EvalDisp.fix_facts",
    "SMT.EvalDisp.nary_facts",
    "SMT.EvalDisp.self_iff",
    "SMT.EvalDisp.var_iff",
    "SMT.EvalDisp.owns_iff",
    "SMT.EvalDisp.self_violated",
    "SMT.EvalDisp.int2bv_violated",
    "SMT.EvalDisp.bv2int_violated",
    "SMT.EvalDisp.divisible_violated"
   ],
   "note": "value kept for every expression without int2bv, bv2int and divisible (refuted for those); constant results refuted for an explicit, exact list of kinds that are not evaluated"
  },
  {
   "property": "C67",
   "status": "partial",
   "theorems": [
    "SMT.Dump.dump_script",
    "SMT.Dump.dump_round_trip_partial",
    "SMT.Dump.dump_lets_partial",
    "SMT.Dump.no_logic",
    "SMT.Dump.no_logic_violated",
    "SMT.Dump.mutual_violated"
   ],
   "note": "Proved for problems of any size whose expressions are in the round-trip class of C41 (dump_lets_partial: with let chains, in the default mode, when lets are numbered in the order of the dump), with a logic of the list, sorts of arity 0 and distinct word names. Violated: without set-logic the text starts with (set-logic UNKNOWN_LOGIC), which the parser rejects; mutually recursive functions are written one after the other and cannot be read. Soft assertions, objectives and names of expressions are not written (the state read back has none)."
  },
  {
   "property": "C68",
   "status": "proved",
   "theorems": [
    "SMT.MdlText.model_read",
    "SMT.MdlText.paren_name_read"
   ],
   "note": "All layouts, any number of definitions; the values are terms in the sense of C52 (Script.Term). Function names must be new and different (otherwise the process exits). What is recorded is the tree of calls of the node constructors; what they return is C41."
  },
  {
   "property": "C69",
   "status": "partial",
   "theorems": [
    "SMT.MdlText.model_round_trip_partial",
    "SMT.MdlText.model_text_violated"
   ],
   "note": "Violated as stated: for every model with at least one variable, the bare text gives an empty model (model_text_violated). Proved: with (model and ) around the text, the same variables in order and the same values, for values in the round-trip class of C41."
  },
  {
   "property": "C70",
   "status": "proved",
   "theorems": [
    "SMT.Walk.isUnit_exact",
    "SMT.Walk.getUnitVar_exact",
    "SMT.Walk.isUnitAtom_exact",
    "SMT.Walk.unit_determined"
   ],
   "note": "All graphs of the node manager. What an atom is, is isAtom of C60."
  },
  {
   "property": "C71",
   "status": "partial",
   "theorems": [
    "SMT.Script.reading_extends",
    "SMT.Script.history_consistent",
    "SMT.Script.functions_listed",
    "SMT.Script.functions_all_listed_partial",
    "SMT.Script.functions_all_listed_violated",
    "SMT.Script.removeFuns_exact"
   ],
   "note": "All texts and histories. Violated: a function made through mkFuncDec or mkFuncDef counts as declared but is not returned by getFunctions (and not written by dumpSMT2); proved to be listed when introduced by texts. Not covered: a text whose reading ends in an exception."
  },
  {
   "property": "C72",
   "status": "partial",
   "theorems": [
    "SMT.Opts.options_last_partial",
    "SMT.Opts.options_no_throw",
    "SMT.Opts.options_table",
    "SMT.Opts.options_violated",
    "SMT.Opts.options_throw_violated"
   ],
   "note": "All histories. Proved for calls whose argument has the type of the option (text true/false or bool for Boolean options, a number for the precision). Violated as stated: a string literal picks the bool overload, so setOption(key, \"false\") turns the option on; a nonzero int turns a Boolean option off; a precision that is no number throws after the option table was changed."
  },
  {
   "property": "C73",
   "status": "partial",
   "theorems": [
    "SMT.Num.operate_encloses_partial",
    "SMT.Num.operate_encloses_or_throws_partial",
    "SMT.Num.operate_call",
    "SMT.Num.operate_conditional",
    "SMT.Num.operate_binary",
    "SMT.Num.operate_empty",
    "SMT.Num.operate_linear_partial",
    "SMT.Num.operate_and",
    "SMT.Num.operate_or_partial",
    "SMT.Num.operate_or_violated",
    "SMT.Num.compound_partial",
    "SMT.Num.compound_violated",
    "SMT.Num.logI_cases",
    "SMT.Num.operate_quotient_partial",
    "SMT.Num.operate_power_partial",
    "SMT.Num.operate_pow_exact_partial"
   ],
   "note": "Dispatch exact for all kinds; enclosure for the twelve unary functions that have it without conditions in C58 and the two that throw outside their domain (the others under the conditions of C58), sums, differences and products with a number in exact arithmetic. Violated: or of disjoint intervals loses closed outer ends; /= of integer ends truncates; += of a real to integer ends does nothing. Enclosure of log(Interval) is not proved."
  },
  {
   "property": "C74",
   "status": "partial",
   "theorems": [
    "SMT.RealText.integer_constant_kept",
    "SMT.RealText.decimal_constant_near",
    "SMT.RealText.large_constant_near",
    "SMT.RealText.real_constant_kept_partial",
    "SMT.RealText.small_constant_lost_violated",
    "SMT.RealText.large_constant_lost_violated",
    "SMT.RealText.special_constant_lost_violated",
    "SMT.RealText.product_lost_violated",
    "SMT.RealText.double_constant_near",
    "SMT.RealText.double_constant_lost_violated",
    "SMT.RealText.integer_source_kept",
    "SMT.RealText.number_source_kept",
    "SMT.RealText.text_source_kept",
    "SMT.RealText.bad_text_refused"
   ],
   "note": "Kept where the text has enough digits, for every precision; the claim for all values is false and the _violated theorems say for which values. Not stated: the values between 10^-8 and 10^-7, where the notation depends on the exponent MPFR reports; pi and e; infinities of doubles."
  },
  {
   "property": "C75",
   "status": "partial",
   "theorems": [
    "SMT.RealText.function_folded_partial",
    "SMT.RealText.recip_folded_partial",
    "SMT.RealText.acot_folded_partial",
    "SMT.RealText.function_kept",
    "SMT.RealText.domain_error_violated",
    "SMT.RealText.sqrt_folded_violated",
    "SMT.RealText.int_folded",
    "SMT.RealText.rounding_folded",
    "SMT.RealText.to_int_sort_violated",
    "SMT.RealText.is_int_violated",
    "SMT.RealText.sign_folded_partial",
    "SMT.RealText.neg_folded_violated",
    "SMT.RealText.int_compared",
    "SMT.RealText.real_compared",
    "SMT.RealText.int_arithmetic",
    "SMT.RealText.real_arithmetic_partial",
    "SMT.RealText.real_arithmetic_violated",
    "SMT.RealText.division_kept_partial",
    "SMT.RealText.division_wrapped_violated",
    "SMT.RealText.division_rounded_violated",
    "SMT.RealText.division_folded_partial",
    "SMT.RealText.division_by_zero_kept",
    "SMT.RealText.division_by_zero_violated",
    "SMT.RealText.int_division_folded_partial",
    "SMT.RealText.int_division_by_zero_violated",
    "SMT.RealText.function2_folded_partial",
    "SMT.RealText.pow_sort_violated",
    "SMT.RealText.log_folded_partial",
    "SMT.RealText.log_domain_violated"
   ],
   "note": "Exact for integer arithmetic, comparisons and rounding operators; functions, real arithmetic and division up to rounding to the precision and to 17 decimals.  The full claim is false of the code: theorems ending in _violated.  Left out: pi, e and algebraic numbers as operands; functions of a reciprocal only where the reciprocal fits the precision."
  },
  {
   "property": "C76",
   "status": "partial",
   "theorems": [
    "SMT.Parse.modes_agree_partial",
    "SMT.Parse.modes_text_partial",
    "SMT.Parse.modes_same_meaning_partial",
    "SMT.Parse.unlet_kept_partial",
    "SMT.Parse.quantified_let_violated",
    "SMT.Parse.escaping_let_violated"
   ],
   "note": "All trees in which let names are bound once, not bound by a quantifier, used only inside their let, and the index of root-obj is a numeral; without these the claim is false (theorems ending in _violated). modes_text_partial starts from the text, in any layout, for the terms of C52."
  },
  {
   "property": "C77",
   "status": "proved",
   "theorems": [
    "SMT.Script.sort_answers",
    "SMT.Script.expr_answers",
    "SMT.Script.expr_reads",
    "SMT.Script.mkExpr_answers",
    "SMT.Script.parseStr_answers",
    "SMT.Script.parseFile_answers",
    "SMT.Script.parseStr_ends",
    "SMT.Script.slow_sort_violated"
   ],
   "note": "For every text and every state, about the model of the reader (calls of node constructors are recorded, not run: their loops are not part of this claim). slow_sort_violated is the part of the statement that there is no bound in the length of the text alone."
  },
  {
   "property": "C78",
   "status": "partial",
   "theorems": [
    "SMT.Num.IntClass.factorial_exact",
    "SMT.Num.IntClass.factorial_violated",
    "SMT.Num.IntClass.fibonacci_exact",
    "SMT.Num.IntClass.fibonacci_violated",
    "SMT.Num.IntClass.toInt_exact",
    "SMT.Num.IntClass.toLong_exact",
    "SMT.Num.IntClass.toULong_exact",
    "SMT.Num.IntClass.toLongLong_exact",
    "SMT.Num.IntClass.sqrt_exact",
    "SMT.Num.IntClass.root_exact",
    "SMT.Num.IntClass.div_mod_exact",
    "SMT.Num.IntClass.toText_value",
    "SMT.Num.IntClass.ofText_value",
    "SMT.Num.IntClass.text_round",
    "SMT.Num.IntClass.text_inj",
    "SMT.Num.IntClass.ofText_violated",
    "SMT.Num.IntClass.toInteger_exact",
    "SMT.Num.IntClass.realToLongLong_exact",
    "SMT.Num.IntClass.realToInt_partial",
    "SMT.Num.IntClass.realToInt_violated",
    "SMT.Num.IntClass.numToInteger_exact",
    "SMT.Num.IntClass.add_zero_value",
    "SMT.Num.IntClass.add_zero_partial",
    "SMT.Num.IntClass.add_zero_violated"
   ],
   "note": "All integers, bases, formats. False of the code: factorial and fibonacci never end at the largest unsigned long, toInt of a real wraps, Number::zero() is a real so that adding it rounds large integers (theorems ending in _violated)."
  },
  {
   "property": "C79",
   "status": "partial",
   "theorems": [
    "SMT.Mean.mkExpr_means_partial",
    "SMT.Mean.script_means_partial",
    "SMT.Mean.node_means",
    "SMT.Mean.node_means_all",
    "SMT.Mean.read_means_violated"
   ],
   "note": "All written terms of any size, all assignments, lets expanded when read. Conditions: relations have two operands, sums and products in a logic with I or R in its name, let names bound once and not declared; without them the claim is false (read_means_violated). Not covered: quantifiers, defined functions, other theories; with lets kept C76 relates the two modes."
  },
  {
   "property": "C80",
   "status": "partial",
   "theorems": [
    "SMT.Mean.mkExpr_means_partial",
    "SMT.Mean.script_means_partial",
    "SMT.Mean.node_means",
    "SMT.Mean.node_means_all",
    "SMT.Mean.bvEnv_interprets",
    "SMT.Mean.foldsBv_val",
    "SMT.Mean.bvLit_means",
    "SMT.Mean.bvConst_fits",
    "SMT.Mean.bvConst_means",
    "SMT.Mean.call_bin",
    "SMT.Mean.fold_means_violated",
    "SMT.Mean.extend_means_violated",
    "SMT.Mean.literal_captured_violated"
   ],
   "note": "All terms, widths and values. Conditions: indices are numerals; the operators that are computed wrongly on two constants (bvsub, bvudiv, bvurem, bvsdiv, bvsmod, shifts, bvcomp) have an operand with a variable, or are applied to two literals on which they are computed rightly (FoldsRightBv, BvRight: bvudiv with quotient at most 1 or divisor 0, bvurem by 0, bvsdiv by a nonzero divisor or of a negative dividend, bvsmod by 0 or of a nonnegative dividend, bvshl by 0, bvlshr and bvashr by at most 1); no zero_extend or sign_extend (their nodes have the wrong width). Without the conditions the claim is false: fold_means_violated (each operator), extend_means_violated, literal_captured_violated. bvEnv_interprets shows that assignments as required exist."
  },
  {
   "property": "C81",
   "status": "partial",
   "theorems": [
    "SMT.Mean.mkExpr_evaluates_partial",
    "SMT.Mean.script_evaluates_partial",
    "SMT.Mean.node_evaluates",
    "SMT.Mean.read_evaluates_violated"
   ],
   "note": "All terms, models and assignments. Conditions: those of C79; => has two operands, = and distinct only where no reals occur (the claim is false otherwise: read_evaluates_violated), no operators on bit-vectors; for the literal also no declared function (their applications are never evaluated: read_evaluates_violated) and, with reals, floating-point evaluation on."
  },
  {
   "property": "C82",
   "status": "partial",
   "theorems": [
    "SMT.Mean.script_defs_partial",
    "SMT.Mean.def_node",
    "SMT.Mean.addFuns_ok",
    "SMT.Mean.define_const_violated",
    "SMT.Mean.call_const_violated",
    "SMT.Subst.applyFun_global_violated",
    "SMT.Subst.applyFun_rec_violated"
   ],
   "note": "All scripts, any number of definitions, parameters and nested calls, all assignments and models. Conditions: those of C81 for assertions and bodies, parameters are not named like functions before. False of the code, each with a theorem: bodies with declared constants (the process ends), recursive definitions (calls stay opaque), definitions without parameters (their name is an opaque node). Evaluation to a literal is not claimed: false of the code when arguments are constants (call_const_violated)."
  },
  {
   "property": "C83",
   "status": "partial",
   "theorems": [
    "SMT.Mean.mkExpr_means_partial",
    "SMT.Mean.script_means_partial",
    "SMT.Mean.node_means",
    "SMT.Mean.node_means_all",
    "SMT.Mean.arEnv_interprets",
    "SMT.Mean.call_ar",
    "SMT.Mean.foldsAr_num",
    "SMT.Mean.ratLit_means",
    "SMT.Mean.const_fits",
    "SMT.Mean.const_means",
    "SMT.Mean.fold_arith_violated",
    "SMT.Mean.div_zero_violated",
    "SMT.Mean.div_three_violated"
   ],
   "note": "All terms of any size with two operands of div, mod and /, all values and assignments. Conditions: those of C79; operands can be seen to be of the sort of the operator (OfSort: declared constants, literals, applications, ite, abs, sums and products); one operand of div, mod, /, to_real, to_int, is_int has a declared constant or function in operator position (VariesL), or the operands are constants on which the code computes rightly (FoldsRightAr: numerals with a divisor other than zero, and, with reals, to_real of a numeral and quotients between -2^31 and 2^31 of literals with or without a sign, zero as divisor included). On other constants the claim is false: div and mod round towards zero (fold_arith_violated), / is cut to 32 bits, is_int of a decimal is false, div and mod by zero end in an exception (div_zero_violated); a third operand is lost (div_three_violated). arEnv_interprets shows that assignments as required exist."
  },
  {
   "property": "C84",
   "status": "partial",
   "theorems": [
    "SMT.Mean.mkExpr_means_partial",
    "SMT.Mean.script_means_partial",
    "SMT.Mean.node_means",
    "SMT.Mean.node_means_all",
    "SMT.Mean.call_str",
    "SMT.Mean.leaf_string",
    "SMT.Mean.strApp_unique",
    "SMT.Mean.strEnv_interprets",
    "SMT.Mean.fold_str_violated",
    "SMT.Mean.foldsRight_val",
    "SMT.Mean.lit_fits",
    "SMT.Mean.lit_means_true"
   ],
   "note": "All terms of any size, all strings, values and assignments. Conditions: those of C79 and C83; literals of printable characters without quotation marks, apostrophes and backslashes; integer operands can be seen to be of sort Int (OfSort); except for str.prefixof, str.suffixof and str.contains, which are right on all literals, one operand has a declared constant or function in operator position (VariesL), or the operator is str.++, str.substr, str.replace, str.at at a position up to the end of a literal, or str.replace_all with a nonempty literal pattern, on operands built from literals and numerals below 2^64 (FoldsRight). On other literals the claim is false (fold_str_violated): str.len counts quotation marks, str.is_digit is false, str.from_int makes a literal without quotation marks, str.at throws outside the string, str.to_code and str.to_int end the process, str.replace_all with an empty pattern does not return. strEnv_interprets shows that assignments as required exist, strApp_unique that the specification gives one value. The comparisons str.< and str.<=, regular expressions and the operators outside the standard are not covered."
  }
 ]
}