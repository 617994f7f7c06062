import Verif.Kind.Spec
import Mathlib.Algebra.Order.Field.Rat

/-! # Properties of the operator tables (C15, C16, C17) -/

namespace SMT.Kinds

/-! ## C15: operator names -/

theorem mem_of_lookup {α β} [BEq α] [LawfulBEq α] {l : List (α × β)} {a : α} {b : β}
    (h : l.lookup a = some b) : (a, b) ∈ l := by
  induction l with
  | nil => simp at h
  | cons p l ih =>
    obtain ⟨x, y⟩ := p
    rw [List.lookup_cons] at h
    by_cases e : a == x
    · rw [e] at h
      simp only [Option.some.injEq] at h
      rw [eq_of_beq e, h]; exact List.mem_cons_self
    · rw [Bool.not_eq_true] at e
      rw [e] at h
      exact List.mem_cons_of_mem _ (ih h)

/-- Kinds whose printed name is not read back as the same kind. -/
def Unprintable (k : K) : Prop :=
  k = .BV_TO_INT ∨ k = .INT_TO_BV ∨ k = .STR_INDEXOF_REG ∨ k = .ROOT_OBJ ∨ k = .ROOT_OF_WITH_INTERVAL

instance (k : K) : Decidable (Unprintable k) := by unfold Unprintable; infer_instance

theorem table_roundtrip : ∀ p ∈ operKeyMap, ¬ Unprintable p.2 → getOperKind (kindToString p.2) = p.2 := by
  decide +kernel

theorem root_obj_kind : getOperKind "root-obj" = .ROOT_OBJ := by decide +kernel
theorem table_no_unknown : ∀ p ∈ operKeyMap, p.2 ≠ K.UNKNOWN := by decide +kernel

/-- **C15.**  For every operator name the parser accepts, printing the kind of the node it builds gives a name
that the parser accepts and reads as the same kind, except for five kinds (see the violation below). -/
theorem name_roundtrip_partial (s : String) (h : accepts s = true) (hk : ¬ Unprintable (builtKind s)) :
    accepts (kindToString (builtKind s)) = true ∧ builtKind (kindToString (builtKind s)) = builtKind s := by
  have hs : s ≠ "root-obj" := by
    rintro rfl; exact hk (by simp [builtKind, Unprintable])
  have hb : builtKind s = getOperKind s := by simp [builtKind, hs]
  have hp : parseOperCase (getOperKind s) = true := by simpa [accepts, hs] using h
  rw [hb] at hk ⊢
  have hl : (operKeyMap.lookup s) = some (getOperKind s) := by
    unfold getOperKind at hp ⊢
    cases e : operKeyMap.lookup s with
    | none => rw [e] at hp; exact absurd hp (by decide)
    | some k => rfl
  have r : getOperKind (kindToString (getOperKind s)) = getOperKind s := table_roundtrip _ (mem_of_lookup hl) hk
  have hn : kindToString (getOperKind s) ≠ "root-obj" := by
    intro e; rw [e, root_obj_kind] at r; exact hk (by rw [← r]; simp [Unprintable])
  constructor
  · simp only [accepts, r, hp, Bool.or_true]
  · simp only [builtKind, beq_iff_eq, hn, if_false, r]

/-- Operator symbols of the SMT-LIB theories (Core, Ints, Reals, BitVec, FloatingPoint, Arrays, Strings). -/
def smtlibNames : List String := ["and", "or", "not", "=>", "xor", "=", "distinct", "ite", "+", "-", "*", "div", "/", "mod", "abs", "<=", "<", ">=", ">",
  "to_real", "to_int", "is_int", "bvnot", "bvneg", "bvand", "bvor", "bvxor", "bvnand", "bvnor", "bvxnor", "bvcomp", "bvadd", "bvsub",
  "bvmul", "bvudiv", "bvurem", "bvsdiv", "bvsrem", "bvsmod", "bvshl", "bvlshr", "bvashr", "bvult", "bvule", "bvugt", "bvuge", "bvslt",
  "bvsle", "bvsgt", "bvsge", "concat", "bv2nat", "extract", "repeat", "zero_extend", "sign_extend", "rotate_left",
  "rotate_right", "fp.abs", "fp.neg", "fp.add", "fp.sub", "fp.mul", "fp.div", "fp.fma", "fp.sqrt", "fp.rem",
  "fp.roundToIntegral", "fp.min", "fp.max", "fp.leq", "fp.lt", "fp.geq", "fp.gt", "fp.eq", "fp.to_ubv", "fp.to_sbv",
  "fp.to_real", "to_fp", "to_fp_unsigned", "fp.isNormal", "fp.isSubnormal", "fp.isZero", "fp.isInfinite", "fp.isNaN",
  "fp.isNegative", "fp.isPositive", "select", "store", "str.len", "str.++", "str.substr", "str.prefixof", "str.suffixof",
  "str.indexof", "str.at", "str.replace", "str.replace_all", "str.replace_re", "str.replace_re_all", "str.<", "str.<=",
  "str.in_re", "str.contains", "str.is_digit", "str.from_int", "str.to_int", "str.to_re", "str.to_code", "str.from_code",
  "re.++", "re.union", "re.inter", "re.diff", "re.*", "re.+", "re.opt", "re.range", "re.^", "re.loop", "re.comp"]

/-- Alternative spellings the parser accepts, with the canonical one. -/
def aliases : List (String × String) := [("==", "="), ("<->", "="), ("iff", "="), ("<=>", "="), ("!=", "distinct"), ("<>", "distinct"),
  ("pow", "^"), ("**", "^"), ("%", "mod"), ("safeSqrt", "safesqrt"), ("loge", "ln"), ("log10", "lg"),
  ("log2", "lb"), ("arcsin", "asin"), ("arccos", "acos"), ("arctan", "atan"), ("arcsec", "asec"), ("arccsc", "acsc"),
  ("arccot", "acot"), ("arctan2", "atan2"), ("arcsinh", "asinh"), ("arccosh", "acosh"), ("arctanh", "atanh"), ("arccsch", "acsch"),
  ("arccoth", "acoth"), ("fp.le", "fp.leq"), ("fp.ge", "fp.geq"), ("fp.=", "fp.eq"), ("fp.==", "fp.eq"), ("fp.toUbv", "fp.to_ubv"),
  ("fp.toSbv", "fp.to_sbv"), ("fp.isInf", "fp.isInfinite"), ("fp.isNan", "fp.isNaN"), ("fp.isNeg", "fp.isNegative"), ("fp.isPos", "fp.isPositive"), ("re.?", "re.opt"),
  ("re.repeat", "re.^")]

/-- **C15.**  Every SMT-LIB operator symbol is accepted and the node built from it prints under that very symbol. -/
theorem smtlib_names_exact : ∀ s ∈ smtlibNames, accepts s = true ∧ kindToString (builtKind s) = s := by decide +kernel

theorem table_names : ∀ p ∈ operKeyMap, parseOperCase (getOperKind p.1) = true →
    p.1 ∈ ["bv2int", "int2bv", "root-obj", "str.indexof_re"] ∨ kindToString (getOperKind p.1) = p.1 ∨
      (p.1, kindToString (getOperKind p.1)) ∈ aliases := by decide +kernel

/-- **C15.**  The node built from an accepted name prints under the same name, or under the canonical spelling of an
alias; the four other names are in the violation below. -/
theorem printed_name_partial (s : String) (h : accepts s = true)
    (hs : s ∉ ["bv2int", "int2bv", "root-obj", "str.indexof_re"]) :
    kindToString (builtKind s) = s ∨ (s, kindToString (builtKind s)) ∈ aliases := by
  have hs' : s ≠ "root-obj" := by rintro rfl; simp at hs
  have hb : builtKind s = getOperKind s := by simp [builtKind, hs']
  have hp : parseOperCase (getOperKind s) = true := by simpa [accepts, hs'] using h
  rw [hb]
  have hl : (operKeyMap.lookup s) = some (getOperKind s) := by
    unfold getOperKind at hp ⊢
    cases e : operKeyMap.lookup s with
    | none => rw [e] at hp; exact absurd hp (by decide)
    | some k => rfl
  exact (table_names _ (mem_of_lookup hl) hp).resolve_left hs

/-- Names that depend on the number of operands: `-` with one operand (negation) and `log` with one operand
(natural logarithm) are also read back as the same kind when printed with one operand. -/
theorem unary_roundtrip :
    unaryKind (kindToString (unaryKind "-")) = unaryKind "-" ∧ unaryKind "-" = .NEG ∧
    unaryKind (kindToString (unaryKind "log")) = unaryKind "log" ∧ unaryKind "log" = .LN := by
  decide +kernel

/-- **C15, violated.**  `bv2int`, `int2bv` and `root-obj` are printed as `UNKNOWN_KIND`, which the parser rejects, and
`str.indexof_re` is printed as `str.indexof`, which the parser reads as the other operator. -/
theorem name_roundtrip_violated :
    (∀ s ∈ ["bv2int", "int2bv", "root-obj"],
      accepts s = true ∧ kindToString (builtKind s) = "UNKNOWN_KIND" ∧ accepts "UNKNOWN_KIND" = false) ∧
    (accepts "str.indexof_re" = true ∧ kindToString (builtKind "str.indexof_re") = "str.indexof" ∧
      builtKind "str.indexof" = .STR_INDEXOF ∧ builtKind "str.indexof_re" ≠ .STR_INDEXOF) := by
  decide +kernel

/-- Table entries that cannot be used: the parser knows the names `coth`, `bvumod` and `root-of-with-interval`
but rejects applications of them; `arcsec` names `asec`, not `asech`. -/
theorem table_unusable :
    (∀ s, (operKeyMap.lookup s).isSome = true → accepts s = false →
      s = "coth" ∨ s = "bvumod" ∨ s = "root-of-with-interval") ∧
    builtKind "arcsec" = .ASEC := by
  refine ⟨fun s h1 h2 => ?_, by decide +kernel⟩
  cases e : operKeyMap.lookup s with
  | none => rw [e] at h1; simp at h1
  | some k =>
    have hm := mem_of_lookup e
    have : ∀ p ∈ operKeyMap, parseOperCase p.2 = false → p.1 ≠ "root-obj" →
        p.1 = "coth" ∨ p.1 = "bvumod" ∨ p.1 = "root-of-with-interval" := by decide +kernel
    simp only [accepts, getOperKind, e, Option.getD_some, Bool.or_eq_false_iff, beq_eq_false_iff_ne] at h2
    exact this _ hm h2.2 h2.1

/-- The hypothesis of `name_roundtrip_partial` is met by names of every theory, synonyms included. -/
example : ∀ s ∈ ["and", "<->", "-", "**", "bvsdiv", "fp.leq", "fp.le", "str.<=", "re.opt", "select", "log2"],
    accepts s = true ∧ ¬ Unprintable (builtKind s) := by decide +kernel

/-! ## C16: negating a comparison -/

/-- The three relations of a theory on fitting operands: exactly one holds, unless an operand is NaN. -/
theorem trich (k : K) (t : Th) (o : Ord) (x y : CV) (ho : asOrd k = some (t, o)) (h : Operands k x y)
    (hn : NoNaN x y) :
    (Less t x y ∧ ¬ Same x y ∧ ¬ Less t y x) ∨ (¬ Less t x y ∧ Same x y ∧ ¬ Less t y x) ∨
    (¬ Less t x y ∧ ¬ Same x y ∧ Less t y x) := by
  unfold Operands at h
  rw [ho] at h
  cases t with
  | arith =>
    rcases h with ⟨i, j, rfl, rfl⟩ | ⟨p, q, rfl, rfl⟩
    · simp only [Less, Same, CV.int.injEq]; omega
    · simp only [Less, Same, CV.real.injEq]
      rcases lt_trichotomy p q with h | h | h
      · exact .inl ⟨h, h.ne, h.asymm⟩
      · subst h; exact .inr (.inl ⟨lt_irrefl _, rfl, lt_irrefl _⟩)
      · exact .inr (.inr ⟨h.asymm, h.ne', h⟩)
  | ubv =>
    obtain ⟨w, a, b, rfl, rfl⟩ := h
    simp only [Less, Same, CV.bv.injEq, heq_eq_eq, true_and]
    have : a = b ↔ a.toNat = b.toNat := ⟨fun h => by rw [h], BitVec.eq_of_toNat_eq⟩
    rw [this]; omega
  | sbv =>
    obtain ⟨w, a, b, rfl, rfl⟩ := h
    simp only [Less, Same, CV.bv.injEq, heq_eq_eq, true_and]
    have : a = b ↔ a.toInt = b.toInt := ⟨fun h => by rw [h], BitVec.eq_of_toInt_eq⟩
    rw [this]; omega
  | fp =>
    obtain ⟨a, b, rfl, rfl⟩ := h
    obtain ⟨ha, hb⟩ := hn
    cases a <;> cases b <;> simp_all [Less, Same, Num.XR.lt]
    rename_i p q
    rcases lt_trichotomy p q with h | h | h
    · exact .inl ⟨h, h.ne, h.le⟩
    · exact .inr (.inl ⟨h.ge, h, h.le⟩)
    · exact .inr (.inr ⟨h.le, h.ne', h⟩)
  | str =>
    obtain ⟨a, b, rfl, rfl⟩ := h
    simp only [Less, Same, CV.str.injEq]
    by_cases h1 : a < b
    · refine .inl ⟨h1, ?_, fun h2 => ?_⟩
      · rintro rfl; exact List.lt_irrefl _ h1
      · exact List.lt_irrefl _ (List.lt_trans h1 h2)
    · by_cases h2 : b < a
      · exact .inr (.inr ⟨h1, by rintro rfl; exact h1 h2, h2⟩)
      · exact .inr (.inl ⟨h1, List.le_antisymm (List.not_lt.mp h2) (List.not_lt.mp h1), h2⟩)

/-- `Holds` of an order comparison -/
theorem holds_ord {k : K} {t : Th} {o : Ord} (h : asOrd k = some (t, o)) (x y : CV) :
    Holds k x y ↔ o.rel (Less t x y) (Same x y) (Less t y x) := by
  have h1 : ¬ IsEq k := by rintro (rfl | rfl | rfl) <;> simp [asOrd] at h
  have h2 : ¬ IsDist k := by rintro (rfl | rfl | rfl) <;> simp [asOrd] at h
  have h3 : k ≠ .FP_EQ := by rintro rfl; simp [asOrd] at h
  simp only [Holds, h1, h2, h3, false_and, false_or, h, Option.some.injEq, Prod.mk.injEq]
  constructor
  · rintro ⟨_, _, ⟨rfl, rfl⟩, h⟩; exact h
  · intro h; exact ⟨_, _, ⟨rfl, rfl⟩, h⟩

theorem holds_eq {k : K} (h : IsEq k) (x y : CV) : Holds k x y ↔ x = y := by
  have h2 : ¬ IsDist k := by rcases h with rfl | rfl | rfl <;> simp [IsDist]
  have h3 : k ≠ .FP_EQ := by rcases h with rfl | rfl | rfl <;> simp
  have h4 : asOrd k = none := by rcases h with rfl | rfl | rfl <;> rfl
  simp [Holds, h, h2, h3, h4]

theorem holds_dist {k : K} (h : IsDist k) (x y : CV) : Holds k x y ↔ x ≠ y := by
  have h2 : ¬ IsEq k := by rcases h with rfl | rfl | rfl <;> simp [IsEq]
  have h3 : k ≠ .FP_EQ := by rcases h with rfl | rfl | rfl <;> simp
  have h4 : asOrd k = none := by rcases h with rfl | rfl | rfl <;> rfl
  simp [Holds, h, h2, h3, h4]

/-- complement of a relation -/
def Ord.neg : Ord → Ord
  | .lt => .ge | .le => .gt | .gt => .le | .ge => .lt
/-- converse of a relation -/
def Ord.flip : Ord → Ord
  | .lt => .gt | .le => .ge | .gt => .lt | .ge => .le

theorem neg_ord (k : K) : (asOrd (getNegatedKind k)) = (asOrd k).map (fun p => (p.1, p.2.neg)) := by
  cases k <;> rfl
theorem neg_eq (k : K) : IsEq k → IsDist (getNegatedKind k) := by
  rintro (rfl | rfl | rfl) <;> simp [getNegatedKind, IsDist]
theorem neg_dist (k : K) : IsDist k → IsEq (getNegatedKind k) := by
  rintro (rfl | rfl | rfl) <;> simp [getNegatedKind, IsEq]

/-- **C16.**  For every comparison except `fp.eq`, the negated kind is a comparison on the same operands that holds
exactly when the original does not, provided no operand is NaN. -/
theorem negated_exact_partial (k : K) (x y : CV) (hc : IsComp k) (hk : k ≠ .FP_EQ) (h : Operands k x y)
    (hn : NoNaN x y) :
    IsComp (getNegatedKind k) ∧ Operands (getNegatedKind k) x y ∧
    (Holds (getNegatedKind k) x y ↔ ¬ Holds k x y) := by
  rcases hc with hc | hc | hc | hc
  · have := neg_eq k hc
    refine ⟨.inr (.inl this), ?_, ?_⟩
    · have h4 : asOrd (getNegatedKind k) = none := by rcases this with e | e | e <;> rw [e] <;> rfl
      simp only [Operands, h4]; exact .inr (.inl this)
    · rw [holds_dist this, holds_eq hc]
  · have := neg_dist k hc
    refine ⟨.inl this, ?_, ?_⟩
    · have h4 : asOrd (getNegatedKind k) = none := by rcases this with e | e | e <;> rw [e] <;> rfl
      simp only [Operands, h4]; exact .inl this
    · rw [holds_eq this, holds_dist hc]; simp
  · exact absurd hc hk
  · obtain ⟨⟨t, o⟩, ho⟩ := Option.isSome_iff_exists.mp hc
    have hno : asOrd (getNegatedKind k) = some (t, o.neg) := by rw [neg_ord, ho]; rfl
    refine ⟨.inr (.inr (.inr (by rw [hno]; rfl))), ?_, ?_⟩
    · unfold Operands at h ⊢
      rw [hno]; rw [ho] at h; cases t <;> exact h
    · rw [holds_ord hno, holds_ord ho]
      have := trich k t o x y ho h hn
      cases o <;> simp only [Ord.neg, Ord.rel] <;> grind

/-- Outside floating point no operand is NaN, so the negation is exact for every operand pair. -/
theorem negated_exact_nofp (k : K) (x y : CV) (hc : IsComp k) (hk : k ≠ .FP_EQ) (h : Operands k x y)
    (hf : ∀ o, asOrd k ≠ some (.fp, o)) :
    Holds (getNegatedKind k) x y ↔ ¬ Holds k x y := by
  rcases hc with hc | hc | hc | hc
  · rw [holds_dist (neg_eq k hc), holds_eq hc]
  · rw [holds_eq (neg_dist k hc), holds_dist hc]; simp
  · exact absurd hc hk
  · refine (negated_exact_partial k x y (.inr (.inr (.inr hc))) hk h ?_).2.2
    obtain ⟨⟨t, o⟩, ho⟩ := Option.isSome_iff_exists.mp hc
    unfold Operands at h
    rw [ho] at h
    cases t with
    | arith => rcases h with ⟨_, _, rfl, rfl⟩ | ⟨_, _, rfl, rfl⟩ <;> exact ⟨by simp, by simp⟩
    | ubv => obtain ⟨_, _, _, rfl, rfl⟩ := h; exact ⟨by simp, by simp⟩
    | sbv => obtain ⟨_, _, _, rfl, rfl⟩ := h; exact ⟨by simp, by simp⟩
    | str => obtain ⟨_, _, rfl, rfl⟩ := h; exact ⟨by simp, by simp⟩
    | fp => exact absurd ho (hf o)

/-- **C16, involution.**  Negating twice gives the original comparison, except for `fp.eq`. -/
theorem negated_involutive (k : K) (hc : IsComp k) (hk : k ≠ .FP_EQ) :
    getNegatedKind (getNegatedKind k) = k := by
  cases k <;> first | rfl | (exfalso; simp [IsComp, IsEq, IsDist, asOrd] at hc hk)

/-- **C16, violated.**  With a NaN operand both a floating-point order comparison and its negated kind are false, and
`fp.eq` has no negated kind. -/
theorem negated_violated (y : Num.XR) :
    (∀ k ∈ [K.FP_LT, K.FP_LE, K.FP_GT, K.FP_GE],
      ¬ Holds k (.fp .nan) (.fp y) ∧ ¬ Holds (getNegatedKind k) (.fp .nan) (.fp y)) ∧
    getNegatedKind .FP_EQ = .UNKNOWN := by
  refine ⟨fun k hk => ?_, rfl⟩
  simp only [List.mem_cons, List.not_mem_nil, or_false] at hk
  have a : Num.XR.lt .nan y = false := by cases y <;> rfl
  have b : Num.XR.lt y .nan = false := by cases y <;> rfl
  rcases hk with rfl | rfl | rfl | rfl
  · rw [holds_ord (k := .FP_LT) rfl, holds_ord (k := getNegatedKind .FP_LT) rfl]; simp [Ord.rel, Less, Same, a, b]
  · rw [holds_ord (k := .FP_LE) rfl, holds_ord (k := getNegatedKind .FP_LE) rfl]; simp [Ord.rel, Less, Same, a, b]
  · rw [holds_ord (k := .FP_GT) rfl, holds_ord (k := getNegatedKind .FP_GT) rfl]; simp [Ord.rel, Less, Same, a, b]
  · rw [holds_ord (k := .FP_GE) rfl, holds_ord (k := getNegatedKind .FP_GE) rfl]; simp [Ord.rel, Less, Same, a, b]

example : Operands .BV_SLT (.bv 4 3) (.bv 4 9) ∧ NoNaN (.bv 4 3) (.bv 4 9) ∧ ¬ Holds .BV_SLT (.bv 4 3) (.bv 4 9) ∧
    Holds .BV_SGE (.bv 4 3) (.bv 4 9) := by
  refine ⟨⟨4, 3, 9, rfl, rfl⟩, ⟨by simp, by simp⟩, ?_, ?_⟩
  · rw [holds_ord (k := .BV_SLT) rfl]; simp only [Ord.rel, Less, true_and]; decide
  · rw [holds_ord (k := .BV_SGE) rfl]; simp only [Ord.rel, Less, true_and]; exact .inl (by decide)

/-! ## C17: swapping the operands of a comparison -/

theorem same_symm (x y : CV) : Same x y ↔ Same y x := by
  cases x <;> cases y <;> simp only [Same, eq_comm]
  constructor <;> rintro ⟨rfl, h⟩ <;> exact ⟨rfl, h⟩

/-- **C17.**  For every comparison except `bvslt` and `fp.eq`, the flipped kind is the comparison that holds of
`(y, x)` exactly when the original holds of `(x, y)`, whatever the operands. -/
theorem flip_exact_partial (k : K) (x y : CV) (hc : IsComp k) (hk : k ≠ .BV_SLT) (hk' : k ≠ .FP_EQ) :
    IsComp (getFlipKind k) ∧ (Holds (getFlipKind k) y x ↔ Holds k x y) := by
  rcases hc with hc | hc | hc | hc
  · have : getFlipKind k = k := by rcases hc with rfl | rfl | rfl <;> rfl
    rw [this, holds_eq hc, holds_eq hc]; exact ⟨.inl hc, eq_comm⟩
  · have : getFlipKind k = k := by rcases hc with rfl | rfl | rfl <;> rfl
    rw [this, holds_dist hc, holds_dist hc]; exact ⟨.inr (.inl hc), ne_comm⟩
  · exact absurd hc hk'
  · obtain ⟨⟨t, o⟩, ho⟩ := Option.isSome_iff_exists.mp hc
    have hno : asOrd (getFlipKind k) = some (t, o.flip) := by
      revert ho hk; cases k <;> simp [asOrd, getFlipKind] <;> rintro rfl rfl <;> exact ⟨rfl, rfl⟩
    refine ⟨.inr (.inr (.inr (by rw [hno]; rfl))), ?_⟩
    rw [holds_ord hno, holds_ord ho]
    cases o <;> simp only [Ord.flip, Ord.rel, same_symm x y]

/-- **C17, involution** for every comparison except `bvslt`, `bvsgt` and `fp.eq`. -/
theorem flip_involutive_partial (k : K) (hc : IsComp k) (hk : k ≠ .BV_SLT) (h2 : k ≠ .BV_SGT) (hk' : k ≠ .FP_EQ) :
    getFlipKind (getFlipKind k) = k := by
  cases k <;> first | rfl | (exfalso; simp [IsComp, IsEq, IsDist, asOrd] at hc hk h2 hk')

/-- **C17, violated.**  `bvslt` is flipped to `bvsge`: for equal operands the original is false and the flipped
comparison true; flipping twice does not return to `bvslt` or `bvsgt`; `fp.eq`, although symmetric, is not flipped. -/
theorem flip_violated (w : Nat) (x : BitVec w) :
    getFlipKind .BV_SLT = .BV_SGE ∧ ¬ Holds .BV_SLT (.bv w x) (.bv w x) ∧
    Holds (getFlipKind .BV_SLT) (.bv w x) (.bv w x) ∧
    getFlipKind (getFlipKind .BV_SLT) = .BV_SLE ∧ getFlipKind (getFlipKind .BV_SGT) = .BV_SGE ∧
    getFlipKind .FP_EQ = .UNKNOWN := by
  refine ⟨rfl, ?_, ?_, rfl, rfl, rfl⟩
  · rw [holds_ord (k := .BV_SLT) rfl]; simp [Ord.rel, Less]
  · rw [holds_ord (k := getFlipKind .BV_SLT) rfl]; simp [Ord.rel, Same]

example : IsComp .STR_LE ∧ Holds .STR_LE (.str ['a']) (.str ['b']) ∧ Holds (getFlipKind .STR_LE) (.str ['b']) (.str ['a']) := by
  refine ⟨by simp [IsComp, asOrd], ?_, ?_⟩
  · rw [holds_ord (k := .STR_LE) rfl]; simp only [Ord.rel, Less]; exact .inl (by decide)
  · rw [holds_ord (k := getFlipKind .STR_LE) rfl]; simp only [Ord.flip, Ord.rel, Less]; exact .inl (by decide)

/-- **C17 for atoms, violated.**  Flipping an order atom exchanges the operands but keeps the comparison, so the result
holds of `x` and `y` exactly when the original comparison holds of `y` and `x`; for a strict comparison the two are
never true together. -/
theorem flipComp_violated (k : K) (t : Th) (o : Ord) (x y : CV) (ho : asOrd k = some (t, o)) :
    flipComp (k, x, y) = (k, y, x) ∧
    ((o = .lt ∨ o = .gt) → Operands k x y → NoNaN x y → ¬ (Holds k x y ∧ Holds k y x)) := by
  refine ⟨by revert ho; cases k <;> simp [asOrd, flipComp], fun hs h hn => ?_⟩
  rw [holds_ord ho, holds_ord ho]
  have := trich k t o x y ho h hn
  rcases hs with rfl | rfl <;> simp only [Ord.rel] <;> grind

/-- Flipping an equality or disequality atom keeps it. -/
theorem flipComp_eq (k : K) (x y : CV) (h : IsEq k ∨ IsDist k) : flipComp (k, x, y) = (k, x, y) := by
  rcases h with (rfl | rfl | rfl) | (rfl | rfl | rfl) <;> rfl

/-! ## The comparison operators of objectives -/

/-- The negated operator of an objective comparison is the negated kind, for every operator (so it is exact under the
hypotheses of `negated_exact_partial`). -/
theorem negatedOperator_agrees (c : C) (h : c ≠ .NULL) :
    getCompareNodeKind (getNegatedOperator c) = getNegatedKind (getCompareNodeKind c) ∧
    getNegatedOperator (getNegatedOperator c) = c := by
  cases c <;> first | exact ⟨rfl, rfl⟩ | exact absurd rfl h

/-- **C17 for objectives.**  The flipped operator holds of `(y, x)` exactly when the operator holds of `(x, y)`, and
flipping twice is the identity, for all sixteen operators. -/
theorem flipOperator_exact (c : C) (h : c ≠ .NULL) (x y : CV) :
    (Holds (getCompareNodeKind (getFlipOperator c)) y x ↔ Holds (getCompareNodeKind c) x y) ∧
    getFlipOperator (getFlipOperator c) = c := by
  have key : ∃ t o, asOrd (getCompareNodeKind c) = some (t, o) ∧
      asOrd (getCompareNodeKind (getFlipOperator c)) = some (t, o.flip) := by
    cases c <;> first | exact ⟨_, _, rfl, rfl⟩ | exact absurd rfl h
  obtain ⟨t, o, h1, h2⟩ := key
  refine ⟨?_, by cases c <;> first | rfl | exact absurd rfl h⟩
  rw [holds_ord h1, holds_ord h2]
  cases o <;> simp only [Ord.flip, Ord.rel, same_symm x y]

/-- The strict operator holds exactly when the operator holds and the operands are not equal (no NaN needed). -/
theorem strictOperator_exact (c : C) (h : c ≠ .NULL) (x y : CV) (hf : Operands (getCompareNodeKind c) x y) :
    Holds (getCompareNodeKind (getStrictOperator c)) x y ↔ Holds (getCompareNodeKind c) x y ∧ ¬ Same x y := by
  have irr : ∀ t, Same x y → ¬ Less t x y ∧ ¬ Less t y x := by
    intro t hs
    cases x <;> cases y <;> simp only [Same] at hs <;> try (cases hs; done)
    all_goals first
      | (obtain ⟨rfl, hn⟩ := hs; cases t <;> simp [Less]; rename_i z; cases z <;> simp [Num.XR.lt])
      | (cases hs; cases t <;> simp [Less, List.lt_irrefl])
  have key : ∃ t o, asOrd (getCompareNodeKind c) = some (t, o) ∧
      asOrd (getCompareNodeKind (getStrictOperator c)) =
        some (t, match o with | .lt => .lt | .le => .lt | .gt => .gt | .ge => .gt) := by
    cases c <;> first | exact ⟨_, _, rfl, rfl⟩ | exact absurd rfl h
  obtain ⟨t, o, h1, h2⟩ := key
  rw [holds_ord h1, holds_ord h2]
  have := irr t
  cases o <;> simp only [Ord.rel] <;> grind

/-- Printing the kind of an objective operator gives the symbol that is read back as the operator. -/
theorem compareOperator_roundtrip (c : C) (h : c ≠ .NULL) :
    getCompareOperator (kindToString (getCompareNodeKind c)) = c := by
  cases c <;> first | (decide +kernel) | exact absurd rfl h

end SMT.Kinds
