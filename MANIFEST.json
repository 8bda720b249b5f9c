{
 "claims": [
  {
   "property": "C01",
   "status": "proved",
   "theorems": [
    "Verif.TrieProps.C01_trie_refines_map",
    "Verif.TrieProps.C01_duplicate_add",
    "Verif.TrieProps.C01_unstorable_defect"
   ],
   "note": "all histories of insertions of storable strings and removals; unstorable characters end the program with a defect message"
  },
  {
   "property": "C02",
   "status": "proved",
   "theorems": [
    "Verif.TrieProps.C02_longest_prefix"
   ],
   "note": ""
  },
  {
   "property": "C03",
   "status": "proved",
   "theorems": [
    "Verif.TrieProps.C03_no_dead_branches",
    "Verif.TrieProps.C03_empty_again"
   ],
   "note": ""
  },
  {
   "property": "C04",
   "status": "proved",
   "theorems": [
    "Verif.VectorProps.C04_vector",
    "Verif.VectorProps.C04_defined",
    "Verif.VectorProps.C04_iterator",
    "Verif.VectorProps.C04_growth"
   ],
   "note": "Buffer cells with an explicit capacity; every access outside of the capacity is undefined behaviour in the model. All sequences of operations, all start capacities."
  },
  {
   "property": "C05",
   "status": "proved",
   "theorems": [
    "Verif.VectorProps.C05_builder",
    "Verif.VectorProps.C05_heapstring"
   ],
   "note": "vsnprintf enters by its C specification; appended texts contain no NUL."
  },
  {
   "property": "C06",
   "status": "proved",
   "theorems": [
    "Verif.LinkedListProps.C06_list",
    "Verif.LinkedListProps.C06_lookup",
    "Verif.LinkedListProps.C06_iterator",
    "Verif.LinkedListProps.C06_destroy"
   ],
   "note": "Heap of nodes with next and previous pointers; refinement to a sequence for all sequences of operations."
  },
  {
   "property": "C07",
   "status": "partial",
   "theorems": [
    "Verif.TokenizerProps.C07_lossless_partial",
    "Verif.TokenizerProps.C07_digit_keyword_witness",
    "Verif.ParserProps.C07_calculator"
   ],
   "note": "false for keywords beginning with a digit or dot (witness); proved for all other keyword sets, hence for every context of the calculator"
  },
  {
   "property": "C08",
   "status": "partial",
   "theorems": [
    "Verif.TokenizerProps.C08_canonical_partial",
    "Verif.TokenizerProps.C08_canonical_unique",
    "Verif.TokenizerProps.C08_space_alone",
    "Verif.ParserProps.C08_calculator"
   ],
   "note": "same hypothesis on keywords as C07"
  },
  {
   "property": "C09",
   "status": "proved",
   "theorems": [
    "Verif.ParserProps.C09_error_token",
    "Verif.ParserProps.C09_caret_column"
   ],
   "note": "token index: any context and tokens; column: every context of the calculator, every text"
  },
  {
   "property": "C10",
   "status": "proved",
   "theorems": [
    "Verif.CtxProps.C10_lookup_reflects_history",
    "Verif.CtxProps.C10_refusal",
    "Verif.CtxProps.C10_delete"
   ],
   "note": "all histories with storable names"
  },
  {
   "property": "C100",
   "status": "proved",
   "theorems": [
    "Verif.TrieMemory.C100_history",
    "Verif.TrieMemory.C100_tidy",
    "Verif.TrieMemory.C100_destroy",
    "Verif.TrieMemory.C100_pointer",
    "Verif.TrieMemory.C100_stable",
    "Verif.TrieMemory.C100_unstorable"
   ],
   "note": "Nodes are allocations at addresses; calloc returns any address that is not in use. An access to freed memory is ub. Recursion of destroy_rec is bounded by an existential fuel."
  },
  {
   "property": "C101",
   "status": "proved",
   "theorems": [
    "Verif.EvaluationMemoryProps.C101_rules",
    "Verif.EvaluationMemoryProps.C101_simplify",
    "Verif.EvaluationMemoryProps.C101_arith",
    "Verif.EvaluationMemoryProps.C101_evaluation",
    "Verif.EvaluationMemoryProps.C101_unreadable",
    "Verif.EvaluationMemoryProps.C101_finder"
   ],
   "note": "Simulation of Model/Simplify on nodes in memory. find_matching, which only reads, is a parameter that answers what it answers on the tree (C101_finder: there is such a search); hypothesis: the loops that apply rules end."
  },
  {
   "property": "C102",
   "status": "proved",
   "theorems": [
    "Verif.SessionMemoryProps.C102_session",
    "Verif.SessionMemoryProps.C102_definition",
    "Verif.SessionMemoryProps.C102_clear"
   ],
   "note": "For every history on which the model with trees as values is defined (it is not where an accepted right side has an error when simplified). The search for a match is a parameter that answers what it answers on the tree."
  },
  {
   "property": "C103",
   "status": "partial",
   "theorems": [
    "Verif.ProgramMemoryProps.C103_rule",
    "Verif.ProgramMemoryProps.C103_rule_error",
    "Verif.ProgramMemoryProps.C103_free",
    "Verif.ProgramMemoryProps.C103_program_partial",
    "Verif.ProgramMemoryProps.C103_leak",
    "Verif.ProgramMemoryProps.C103_pattern_leak"
   ],
   "note": "Holds for parse_rule, free_rule, and for programs whose rule files all consist of seven rulesets of rules. The code violates it otherwise: the rules read from any other file are never freed (C103_leak, for all such files), nor are the trees of a pattern that parse_pattern rejects (C103_pattern_leak)."
  },
  {
   "property": "C104",
   "status": "partial",
   "theorems": [
    "Verif.TableMemoryProps.C104_row",
    "Verif.TableMemoryProps.C104_table",
    "Verif.TableMemoryProps.C104_program_partial"
   ],
   "note": "The command itself is proved for all inputs (C104_row, C104_table). The statement on whole programs is partial as in C103: rule files that are not well-formed leave nodes behind (C103_leak). The arithmetic is fixed during one command."
  },
  {
   "property": "C105",
   "status": "partial",
   "theorems": [
    "Verif.LayoutMemoryProps.C105_refines",
    "Verif.LayoutMemoryProps.C105_fails",
    "Verif.LayoutMemoryProps.C105_print",
    "Verif.LayoutMemoryProps.C105_free",
    "Verif.LayoutMemoryProps.C105_partial",
    "Verif.LayoutMemoryProps.C105_leak",
    "Verif.LayoutMemoryProps.C105_client"
   ],
   "note": "Refinement, safety and what exactly remains are proved for all calls (C105_refines, C105_fails, C105_print, C105_free). That nothing remains is false in general (C105_leak: a text that is replaced is not freed) and proved without set_position (C105_partial), which covers all clients (C105_client)."
  },
  {
   "property": "C106",
   "status": "proved",
   "theorems": [
    "Verif.TextMemoryProps.C106_parse",
    "Verif.TextMemoryProps.C106_again",
    "Verif.TextMemoryProps.C106_session",
    "Verif.TextMemoryProps.C106_program",
    "Verif.TextMemoryProps.C106_clear"
   ],
   "note": "C106_session: the session with texts in memory has the same outcomes as the one with texts as values, so it is undefined only where that one is (an accepted right side that has an error when simplified, see C34); what is in memory afterwards is stated for every normal end. Growing a vector keeps the address of its buffer in the model; the table command is covered as far as its parses are (C106_parse, C106_again)."
  },
  {
   "property": "C107",
   "status": "partial",
   "theorems": [
    "Verif.OperatorMemoryProps.C107_functions",
    "Verif.OperatorMemoryProps.C107_clear",
    "Verif.OperatorMemoryProps.C107_evaluated",
    "Verif.OperatorMemoryProps.C107_simplify",
    "Verif.OperatorMemoryProps.C107_helpers",
    "Verif.OperatorMemoryProps.C107_helpers_partial",
    "Verif.OperatorMemoryProps.C107_dangling",
    "Verif.OperatorMemoryProps.C107_operands_partial",
    "Verif.OperatorMemoryProps.C107_operands_missing"
   ],
   "note": "Functions and results: proved for all histories, also with parameters that are lists; the assumption on simplify is proved of the program's own one (C107_simplify). Helper patterns: valid when made (C107_helpers), and in every later state if no function x or z existed then (C107_helpers_partial); otherwise violated: C107_dangling (x=5, load simplification, clear x). The number of operands on right sides is right without brackets in definitions (C107_operands_partial), with brackets it may not be (C107_operands_missing)."
  },
  {
   "property": "C11",
   "status": "proved",
   "theorems": [
    "Verif.CtxProps.C11_assoc_consistent"
   ],
   "note": ""
  },
  {
   "property": "C12",
   "status": "partial",
   "theorems": [
    "Verif.CtxProps.C12_ids_unique_partial",
    "Verif.CtxProps.C12_same_id_witness"
   ],
   "note": "false in general (witness: define f, g, delete f, define h); proved for histories that delete only the most recent operators"
  },
  {
   "property": "C13",
   "status": "partial",
   "theorems": [
    "Verif.CtxProps.C13_keywords_are_names",
    "Verif.CtxProps.C13_names_are_keywords_partial",
    "Verif.CtxProps.C13_shared_name_witness"
   ],
   "note": "deleting an operator removes the keyword even when another placement shares the name (witness); keywords are always names; the converse is proved when no deleted name is shared"
  },
  {
   "property": "C14",
   "status": "partial",
   "theorems": [
    "Verif.ParserProps.C14_no_crash_partial",
    "Verif.ParserProps.C14_no_crash_calculator_partial",
    "Verif.ParserProps.C14_nested_delimiter_witness",
    "Verif.ParserProps.C14_nested_argument_witness"
   ],
   "note": "false: a delimiter inside a parenthesis that directly follows ( or , dereferences NULL (witnesses); proved for all other token sequences in well-formed contexts"
  },
  {
   "property": "C15",
   "status": "partial",
   "theorems": [
    "Verif.ParserProps.C15_complete_partial",
    "Verif.ParserProps.C15_function_glue_witness"
   ],
   "note": "false with a function as glue operator (witness); proved for well-formed contexts and token sequences as in C14"
  },
  {
   "property": "C16",
   "status": "proved",
   "theorems": [
    "Verif.ParserProps.C16_arity",
    "Verif.ParserProps.C16_operators_known"
   ],
   "note": "any context, any tokens"
  },
  {
   "property": "C17",
   "status": "partial",
   "theorems": [
    "Verif.PrinterProps.C17_roundtrip_partial",
    "Verif.PrinterProps.C17_injective_partial",
    "Verif.PrinterProps.C17_clash_witness"
   ],
   "note": "Round trip for every writable tree in every context that keeps postfix operators apart from right-associative infix operators of the same precedence; the witness shows the hypothesis is needed. Prefix names with % are excluded (name is used as format string)."
  },
  {
   "property": "C18",
   "status": "partial",
   "theorems": [
    "Verif.PrinterProps.C18_text_partial",
    "Verif.PrinterProps.C18_text_only",
    "Verif.PrinterProps.C18_rounded_partial",
    "Verif.PrinterProps.C18_rounding_witness",
    "Verif.PrinterProps.C18_negative_witness",
    "Verif.PrinterProps.C18_exponent_witness",
    "Verif.PrintfProps.C18_doubles_partial",
    "Verif.PrintfProps.C18_third"
   ],
   "note": "Text level, calculator context with any user functions. The full statement is violated by constants that are rounded (C18_third: 1/3), negative, or written with an exponent. C18_doubles_partial: over doubles with %.10g and strtod, trees with ordinary constants (C89) come back with every constant rounded to ten digits, and have the same text again; C18_rounded_partial says this for any reading and rendering that fit together."
  },
  {
   "property": "C19",
   "status": "proved",
   "theorems": [
    "Verif.ParserProps.C19_juxtaposition",
    "Verif.ParserProps.C19_calculator"
   ],
   "note": "any infix glue operator; all outcomes including errors"
  },
  {
   "property": "C20",
   "status": "proved",
   "theorems": [
    "Verif.ParserProps.C20_spaces_irrelevant",
    "Verif.ParserProps.C20_same_shape"
   ],
   "note": "any context, any tokens"
  },
  {
   "property": "C21",
   "status": "partial",
   "theorems": [
    "Verif.TreeProps.C21_copy",
    "Verif.TreeProps.C21_refl",
    "Verif.TreeProps.C21_symm",
    "Verif.TreeProps.C21_trans",
    "Verif.TreeProps.C21_same_partial",
    "Verif.TreeProps.C21_same_id_witness"
   ],
   "note": "Copy and equivalence relation are proved. Comparison tells different expressions apart only if ids are unique among the operators; the witness shows a context where they are not."
  },
  {
   "property": "C22",
   "status": "proved",
   "theorems": [
    "Verif.TreeProps.C22_list_variables",
    "Verif.TreeProps.C22_exists"
   ],
   "note": "Order of first occurrence is stated by positions in the pre-order listing; ids by a relation between the trees."
  },
  {
   "property": "C23",
   "status": "proved",
   "theorems": [
    "Verif.TreeProps.C23_replace",
    "Verif.TreeProps.C23_count"
   ],
   "note": "Against an inductive substitution relation."
  },
  {
   "property": "C24",
   "status": "proved",
   "theorems": [
    "Verif.TreeProps.C24_value",
    "Verif.TreeProps.C24_error"
   ],
   "note": "Listener is an arbitrary function; both outcomes are characterised by equivalences."
  },
  {
   "property": "C25",
   "status": "proved",
   "theorems": [
    "Verif.TreeProps.C25_value",
    "Verif.TreeProps.C25_folded",
    "Verif.TreeProps.C25_error",
    "Verif.TreeProps.C25_vars"
   ],
   "note": "For deterministic listeners (rand is outside)."
  },
  {
   "property": "C26",
   "status": "partial",
   "theorems": [
    "Verif.MatchProps.C26_sound",
    "Verif.MatchProps.C26_assignment",
    "Verif.MatchProps.C26_constraints_partial",
    "Verif.MatchProps.C26_ground_witness",
    "Verif.MatchProps.C26_foreign_witness"
   ],
   "note": "Reproduction of the tree is proved for every pattern, tree and checker. Constraints: proved when their variables occur in the pattern and the pattern has variables; the code does not check other constraints (witnesses)."
  },
  {
   "property": "C27",
   "status": "partial",
   "theorems": [
    "Verif.MatchProps.C27_partial",
    "Verif.MatchProps.C27_nan_witness"
   ],
   "note": "A matching is found whenever an assignment exists; stated for patterns for which matching is defined (C28), for constraints over variables of the pattern, and without NaN, with which it fails (witness)."
  },
  {
   "property": "C28",
   "status": "partial",
   "theorems": [
    "Verif.MatchProps.C28_partial",
    "Verif.MatchProps.C28_linear",
    "Verif.MatchProps.C28_witness"
   ],
   "note": "Proved for patterns in which no list variable bound before a parameter list is followed in it by another one, which includes all patterns that use each list variable once; the code reads out of bounds otherwise (witness)."
  },
  {
   "property": "C29",
   "status": "proved",
   "theorems": [
    "Verif.RewriteProps.C29_applied",
    "Verif.RewriteProps.C29_not_applied",
    "Verif.RewriteProps.C29_instance"
   ],
   "note": ""
  },
  {
   "property": "C30",
   "status": "proved",
   "theorems": [
    "Verif.RewriteProps.C30_variables",
    "Verif.RewriteProps.C30_arity"
   ],
   "note": ""
  },
  {
   "property": "C31",
   "status": "partial",
   "theorems": [
    "Verif.RewriteProps.C31_partial",
    "Verif.RewriteProps.C31_cap0_witness"
   ],
   "note": "Proved for every cap of at least 1; with cap 0 the code does not stop (witness)."
  },
  {
   "property": "C32",
   "status": "partial",
   "theorems": [
    "Verif.SessionProps.C32_defines",
    "Verif.SessionProps.C32_expansion_partial",
    "Verif.SimplifyProps.C32_shipped_partial",
    "Verif.SessionProps.C32_unique",
    "Verif.SessionProps.C32_brackets",
    "Verif.SessionProps.C32_brackets_abort"
   ],
   "note": "False for list-named parameters (witnesses) and after number clashes (C37). Proved for all histories in which the operator numbers stay unique, in particular all without `clear f`; for any `simplify` that introduces no user functions, and for simplify as it is, with no rules or the shipped ones."
  },
  {
   "property": "C33",
   "status": "proved",
   "theorems": [
    "Verif.SessionProps.C33_unchanged",
    "Verif.SessionProps.C33_invisible",
    "Verif.SessionProps.C33_later"
   ],
   "note": ""
  },
  {
   "property": "C34",
   "status": "partial",
   "theorems": [
    "Verif.SessionProps.C34_error_crashes",
    "Verif.SessionProps.C34_error_crashes_general",
    "Verif.SessionProps.C34_comma_crashes",
    "Verif.SimplifyProps.C34_derivative",
    "Verif.SessionProps.C34_no_crash_partial",
    "Verif.SessionProps.C34_evaluation_partial",
    "Verif.SimplifyProps.C34_shipped_partial"
   ],
   "note": "Violated: an error while simplifying the right side dereferences NULL (also `f(x,y)=(x*y)'` with the shipped rules); a comma directly inside parentheses crashes the parser. Proved: no crash if delimiters stand in parameter lists only, simplification reports no error, and operator numbers are unique; also for simplify as it is."
  },
  {
   "property": "C35",
   "status": "proved",
   "theorems": [
    "Verif.SessionProps.C35_permanent"
   ],
   "note": ""
  },
  {
   "property": "C36",
   "status": "proved",
   "theorems": [
    "Verif.SessionProps.C36_all",
    "Verif.SessionProps.C36_one",
    "Verif.SessionProps.C36_any_separator",
    "Verif.SessionProps.C36_trailing_blank"
   ],
   "note": ""
  },
  {
   "property": "C37",
   "status": "partial",
   "theorems": [
    "Verif.SessionProps.C37_other_definition",
    "Verif.SessionProps.C37_false_recursion",
    "Verif.SessionProps.C37_own_definition_partial",
    "Verif.SessionProps.Reach.noSingleClear"
   ],
   "note": "Violated after `clear f` followed by a definition. Proved for all histories whose definitions are made while operator numbers are unique (all histories without `clear f`)."
  },
  {
   "property": "C38",
   "status": "partial",
   "theorems": [
    "Verif.SessionProps.C38_record",
    "Verif.SessionProps.C38_lookup",
    "Verif.EvaluationProps.C38_at",
    "Verif.EvaluationProps.C38_ans",
    "Verif.EvaluationProps.C38_conversion"
   ],
   "note": "Violated for indices outside the range of int (conversion undefined). Proved: what is recorded, and the values of @k and ans for indices in the range of int."
  },
  {
   "property": "C39",
   "status": "partial",
   "theorems": [
    "Verif.EvaluationProps.C39_gcd",
    "Verif.EvaluationProps.C39_gcd_double",
    "Verif.EvaluationProps.C39_gcd_exact",
    "Verif.EvaluationProps.C39_lcm_partial",
    "Verif.EvaluationProps.C39_lcm_zero"
   ],
   "note": "gcd proved for all numbers whose integer parts are exact. lcm violated for lcm(0,0) (not a number), proved otherwise."
  },
  {
   "property": "C40",
   "status": "partial",
   "theorems": [
    "Verif.EvaluationProps.C40_binomial_partial",
    "Verif.EvaluationProps.C40_exact_partial",
    "Verif.EvaluationProps.C40_too_large"
   ],
   "note": "Violated for k > n (result 1). Proved for k <= n."
  },
  {
   "property": "C41",
   "status": "partial",
   "theorems": [
    "Verif.EvaluationProps.C41_factorial",
    "Verif.EvaluationProps.C41_factorial_exact",
    "Verif.EvaluationProps.fibZ_rec",
    "Verif.EvaluationProps.C41_fib_partial",
    "Verif.EvaluationProps.C41_fib_double",
    "Verif.EvaluationProps.C41_fib_overflow",
    "Verif.PrimitiveProps.C41_long"
   ],
   "note": "Factorial proved. fib violated from 93 on (signed overflow), proved from -92 to 92."
  },
  {
   "property": "C42",
   "status": "partial",
   "theorems": [
    "Verif.EvaluationProps.C42_other_operators_partial",
    "Verif.EvaluationProps.C42_determined",
    "Verif.EvaluationProps.C42_operators_partial",
    "Verif.EvaluationProps.C42_exact_partial",
    "Verif.EvaluationProps.C42_expressions_partial",
    "Verif.EvaluationProps.C42_gcd_hangs",
    "Verif.EvaluationProps.C42_factorial_hangs",
    "Verif.EvaluationProps.C42_gcd_infinity_hangs"
   ],
   "note": "Violated: gcd(1,10^17), (10^17)!, gcd(max(),1) never end. Proved: only gcd, lcm, C and ! can fail to end, and they end on finite arguments below 2^53."
  },
  {
   "property": "C43",
   "status": "partial",
   "theorems": [
    "Verif.TableProps.C43_command",
    "Verif.TableProps.C43_exact_partial",
    "Verif.TableProps.C43_integers",
    "Verif.TableProps.C43_end",
    "Verif.TableProps.C43_terminates_partial",
    "Verif.TableProps.C43_doubles_partial",
    "Verif.TableProps.C43_endless",
    "Verif.TableProps.C43_missed"
   ],
   "note": "The command succeeds exactly for well-formed input and its rows are those of the specification (iff). Rows exact where sums are exact (integers up to 2^53); termination where the step exceeds the rounding error. Violated by doubles: endless loop and missing end row, with witnesses."
  },
  {
   "property": "C44",
   "status": "partial",
   "theorems": [
    "Verif.TableProps.C43_command",
    "Verif.TableProps.C44_fold_partial",
    "Verif.TableProps.C44_history",
    "Verif.TableProps.C44_error"
   ],
   "note": "Left fold over the successful rows whenever no combination is an error; an error counts as 0 silently (witness)."
  },
  {
   "property": "C45",
   "status": "partial",
   "theorems": [
    "Verif.LayoutProps.C45_partial",
    "Verif.LayoutProps.C45_made",
    "Verif.LayoutProps.C45_tight",
    "Verif.LayoutProps.C45_cut",
    "Verif.LayoutProps.C45_cut_seen"
   ],
   "note": "For every sequence of calls the dimensions give every cell with a span of at least one column (row) the room it needs; properly made tables fit every line of every text, and without spans the sizes are tight. Missing: a span that is cut to no rows loses its text (witness C45_cut)."
  },
  {
   "property": "C46",
   "status": "partial",
   "theorems": [
    "Verif.StringProps.C46_line_partial",
    "Verif.StringProps.C46_leading_newline"
   ],
   "note": "Holds for every text that does not start with a newline; the code is wrong for those that do: C46_leading_newline says what it answers."
  },
  {
   "property": "C47",
   "status": "partial",
   "theorems": [
    "Verif.CommandProps.C47_exact",
    "Verif.CommandProps.C47_total",
    "Verif.CommandProps.C47_documented_partial",
    "Verif.CommandProps.C47_load_equals",
    "Verif.CommandProps.C47_clear_glued"
   ],
   "note": "Exactly one command for every input; documented forms go to their command except load/clear with an equals sign; inputs that only start with clear are clear commands (witnesses)."
  },
  {
   "property": "C48",
   "status": "partial",
   "theorems": [
    "Verif.CommandProps.C48_returns_partial",
    "Verif.CommandProps.C48_exits_partial",
    "Verif.CommandProps.C48_fails_partial",
    "Verif.CommandProps.C48_arguments",
    "Verif.CommandProps.C48_no_newline",
    "Verif.CommandProps.C48_nul",
    "Verif.CommandProps.C48_forgotten"
   ],
   "note": "Complete characterisation for texts whose lines end with a newline and contain no NUL. Violated by texts without final newline, by NUL characters, and by quit in a loaded file, which forgets failures."
  },
  {
   "property": "C49",
   "status": "partial",
   "theorems": [
    "Verif.RuleProps.C49_shipped",
    "Verif.RuleProps.C49_partial",
    "Verif.RuleProps.C49_improves",
    "Verif.RuleProps.C49_rulesets",
    "Verif.RuleProps.C49_step_deriv",
    "Verif.RuleProps.C49_unsound"
   ],
   "note": "Shipped rule file is read by the model of the program (numbers exact); each of the 135 rules is proved to keep the value where both sides have one, except four that are shown to be wrong by concrete expressions ((x^y)^z, a product losing factors, -(x+y) -> x-y, and deriv(x,z) -> 0 at deriv(z,z), which the order of the rules hides). Over the reals; rounding is not considered."
  },
  {
   "property": "C50",
   "status": "partial",
   "theorems": [
    "Verif.RuleProps.C50_partial",
    "Verif.RuleProps.C50_zero",
    "Verif.RuleProps.C50_step",
    "Verif.RuleProps.C50_steps"
   ],
   "note": "Every derivative rule: where the derived expression is defined around the point and the right side has a value, that is the derivative; proved for all expressions over the reals, and for whole runs of the ruleset. deriv(x,z) -> 0 alone is wrong for deriv(z,z); in the order of the program it is right. Variables have id 0 as those made by the parser."
  },
  {
   "property": "C51",
   "status": "proved",
   "theorems": [
    "Verif.RewriteProps.C51_preserves"
   ],
   "note": "Equal constants must be the same value and operators with equal ids must mean the same."
  },
  {
   "property": "C52",
   "status": "partial",
   "theorems": [
    "Verif.RuleFileProps.C52_rule_partial",
    "Verif.RuleFileProps.C52_rejected_partial",
    "Verif.RuleFileProps.C52_no_arrow",
    "Verif.RuleFileProps.C52_file_partial",
    "Verif.RuleFileProps.C52_constraints_witness",
    "Verif.RuleFileProps.C52_newline_witness",
    "Verif.RuleFileProps.C52_first_witness",
    "Verif.RuleFileProps.C52_last_witness",
    "Verif.RuleFileProps.C52_overflow_witness",
    "Verif.RuleFileProps.C52_nul_witness"
   ],
   "note": "The code violates the full statement (witnesses: fourth constraint ignored, last character without newline lost, rules before the first or after the last header ignored, two surplus headers write outside of the array). Proved for files whose lines end with a newline, without NUL, at most as many rulesets as there is room for and at most three constraints per rule."
  },
  {
   "property": "C53",
   "status": "partial",
   "theorems": [
    "Verif.RuleFileProps.C53_partial",
    "Verif.RuleFileProps.C53_malformed_witness",
    "Verif.RuleFileProps.C53_missing_witness"
   ],
   "note": "The code violates the full statement: malformed files are reported as loaded and the old rules are discarded first (witnesses for every such file). Proved: exactly when failure is reported and which rules are in force afterwards."
  },
  {
   "property": "C54",
   "status": "partial",
   "theorems": [
    "Verif.LayoutProps.C54_partial",
    "Verif.LayoutProps.C54_plain",
    "Verif.LayoutProps.C54_span",
    "Verif.LayoutProps.C54_superfluous",
    "Verif.LayoutProps.C54_escape",
    "Verif.LayoutProps.C54_utf8",
    "Verif.LayoutProps.C54_last",
    "Verif.LayoutProps.C54_hang"
   ],
   "note": "All lines have the same width and their number is known, for all tables without spans and with spans if the lines beside them agree. The full statement is false: witnesses for spans next to a line, removed lines, adjacent escape sequences, UTF-8, a span at the last column (out of bounds), and a cut span (endless loop)."
  },
  {
   "property": "C55",
   "status": "partial",
   "theorems": [
    "Verif.StringProps.C55_split",
    "Verif.StringProps.C55_unique",
    "Verif.StringProps.C55_strip_partial",
    "Verif.StringProps.C55_strip_underrun",
    "Verif.StringProps.C55_pieces",
    "Verif.StringProps.C55_begins"
   ],
   "note": "str_split and begins_with in full; strip leaves its block for a string of blanks at the start of the block (C55_strip_underrun). C55_pieces: as used by the table command both are safe."
  },
  {
   "property": "C56",
   "status": "proved",
   "theorems": [
    "Verif.SimplProps.C56_nonnegative",
    "Verif.SimplProps.C56_value",
    "Verif.SimplProps.C56_unchanged"
   ],
   "note": "Doubles enter through the stated facts that fabs of a negative number is not negative and that its negation is the number."
  },
  {
   "property": "C57",
   "status": "partial",
   "theorems": [
    "Verif.GrammarProps.C57_accepts",
    "Verif.GrammarProps.C57_unambiguous",
    "Verif.GrammarProps.C57_only_partial",
    "Verif.GrammarProps.C57_only_glue_partial",
    "Verif.GrammarProps.C57_exact_partial",
    "Verif.GrammarProps.C57_dangling_witness",
    "Verif.GrammarProps.C57_conventions"
   ],
   "note": "Grammar -> parser holds for all well-shaped contexts, the grammar is unambiguous; parser -> grammar for sequences without an operator directly before a closing parenthesis. The witness 1+sum(-) shows the full statement is violated."
  },
  {
   "property": "C58",
   "status": "proved",
   "theorems": [
    "Verif.TreeProps.C58_variable_nodes"
   ],
   "note": ""
  },
  {
   "property": "C59",
   "status": "proved",
   "theorems": [
    "Verif.TreeProps.C59_find_op",
    "Verif.TreeProps.C59_not_found"
   ],
   "note": ""
  },
  {
   "property": "C60",
   "status": "proved",
   "theorems": [
    "Verif.RewriteProps.C60_replace_by_list",
    "Verif.RewriteProps.C60_loop"
   ],
   "note": ""
  },
  {
   "property": "C61",
   "status": "proved",
   "theorems": [
    "Verif.SimplProps.C61_checker",
    "Verif.SimplProps.C61_reduce_ops",
    "Verif.SimplProps.C61_count_witness"
   ],
   "note": "For constraints whose operators have their number of operands and that use type/equal on ordinary expressions; a constraint using count directly ends the program (witness)."
  },
  {
   "property": "C62",
   "status": "proved",
   "theorems": [
    "Verif.SimplProps.C62_normal_form",
    "Verif.SimplProps.C62_value"
   ],
   "note": ""
  },
  {
   "property": "C63",
   "status": "partial",
   "theorems": [
    "Verif.SimplifyProps.C63_function",
    "Verif.SimplifyProps.C63_constant",
    "Verif.SimplifyProps.C63_same_partial",
    "Verif.SimplifyProps.C63_shipped_partial"
   ],
   "note": "Violated after `x(a)=a` (every simplification is undefined behaviour or does not end) and after `x=5` (derivatives are not recognised): witnesses. Proved for every history without functions named x or z."
  },
  {
   "property": "C64",
   "status": "partial",
   "theorems": [
    "Verif.EvaluationProps.C64_power_partial",
    "Verif.EvaluationProps.C64_power_errors"
   ],
   "note": "Violated for (-2)^(-1), (-2)^0, 0^0. Proved for positive bases, for base 0 with positive exponent, for negative bases with exponents from 1 on."
  },
  {
   "property": "C65",
   "status": "partial",
   "theorems": [
    "Verif.EvaluationProps.C65_max",
    "Verif.EvaluationProps.C65_min",
    "Verif.EvaluationProps.C65_exact",
    "Verif.EvaluationProps.C65_no_arguments",
    "Verif.EvaluationProps.C65_exchange",
    "Verif.PrimitiveProps.C65_less"
   ],
   "note": "Violated without arguments: max() is an infinity, var() is not a number. Proved for at least one argument; sum, prod, avg, var in exact arithmetic."
  },
  {
   "property": "C66",
   "status": "partial",
   "theorems": [
    "Verif.FunctionProps.C66_denotes",
    "Verif.FunctionProps.C66_exists",
    "Verif.FunctionProps.C66_unique",
    "Verif.FunctionProps.C66_constants",
    "Verif.FunctionProps.C66_errors",
    "Verif.FunctionProps.C66_rand_partial",
    "Verif.FunctionProps.C66_rand_empty"
   ],
   "note": "Over exact reals every operator evaluates to the value of its description (relation Denotes, written from the help text). Excluded or violated: rand(a,b) draws from a..b-1 and rand(a,a) yields a value outside its range (C66_rand_empty); e and pi are decimal literals (C66_constants bounds the error); libm is its real-number meaning."
  },
  {
   "property": "C67",
   "status": "partial",
   "theorems": [
    "Verif.CommandProps.C67_load",
    "Verif.CommandProps.C67_inlined",
    "Verif.CommandProps.C67_missing",
    "Verif.CommandProps.C67_rules",
    "Verif.CommandProps.C67_quit",
    "Verif.CommandProps.C67_depth",
    "Verif.CommandProps.C67_loop",
    "Verif.CommandProps.C67_status"
   ],
   "note": "Same final state as typing the lines in; the reported status differs (failures in a file are ignored), and files need a final newline."
  },
  {
   "property": "C68",
   "status": "proved",
   "theorems": [
    "Verif.CommandProps.C68_reachable",
    "Verif.CommandProps.C68_history"
   ],
   "note": "Every state is Reachable, the hypothesis of the theorems about definitions, clearing, evaluation and history."
  },
  {
   "property": "C69",
   "status": "proved",
   "theorems": [
    "Verif.LayoutProps.C69",
    "Verif.LayoutProps.C69_marked",
    "Verif.LayoutProps.C69_bytes",
    "Verif.PrimitiveProps.C69_newlines",
    "Verif.PrimitiveProps.C69_negative_width"
   ],
   "note": "Exact output against the separate functions shown, shownBy and shownWith, also with alignments that are overridden for rows and cells (C69_marked) and for texts outside of ASCII, of which the bytes are counted (C69_bytes). Hypotheses: at most 11 columns, tidy texts, heights at most 2^31 (conversion to int)."
  },
  {
   "property": "C70",
   "status": "partial",
   "theorems": [
    "Verif.LayoutProps.C70_partial",
    "Verif.LayoutProps.C70_spanless",
    "Verif.LayoutProps.C70_positive",
    "Verif.LayoutProps.C70_phantom"
   ],
   "note": "For all calls the counters are at least the number of lines, so they never wrap; equal without spans. Equality fails when a span covers a cell with a line of its own (witness C70_phantom)."
  },
  {
   "property": "C71",
   "status": "partial",
   "theorems": [
    "Verif.LayoutProps.C71_partial",
    "Verif.LayoutProps.C71_cut",
    "Verif.PrimitiveProps.C71_span_align"
   ],
   "note": "For tables whose spans cover free cells. A cut span leaves cells that point to it outside of its rectangle (witness C71_cut)."
  },
  {
   "property": "C72",
   "status": "proved",
   "theorems": [
    "Verif.LayoutProps.C72"
   ],
   "note": "all calls but set_span; texts tidy (escape sequences not adjacent, ASCII) and of at most 2^31 lines"
  },
  {
   "property": "C73",
   "status": "proved",
   "theorems": [
    "Verif.LayoutProps.C73",
    "Verif.LayoutProps.C73_position"
   ],
   "note": ""
  },
  {
   "property": "C74",
   "status": "proved",
   "theorems": [
    "Verif.LayoutProps.C74",
    "Verif.LayoutProps.C74_lines"
   ],
   "note": "the frame for tables with a blank last row and without spans and single lines; what is set for all tables"
  },
  {
   "property": "C75",
   "status": "partial",
   "theorems": [
    "Verif.SimplifyProps.C75_wrong",
    "Verif.SimplifyProps.C75_partial",
    "Verif.SimplifyProps.C75_plain_partial",
    "Verif.SimplifyProps.C75_moves",
    "Verif.SimplifyProps.C75_move"
   ],
   "note": "Violated: -2*(x+y) becomes 2*x-2*y. Proved over the reals: the value is kept unless one of the listed rules is applied on the way."
  },
  {
   "property": "C76",
   "status": "partial",
   "theorems": [
    "Verif.SimplifyProps.C76_diverges",
    "Verif.SimplifyProps.C76_no_answer",
    "Verif.SimplifyProps.C76_exchange_witness",
    "Verif.SimplifyProps.C76_phase_partial",
    "Verif.SimplifyProps.C76_ordering_partial",
    "Verif.SimplifyProps.C76_partial"
   ],
   "note": "The property is violated: (-2*3)' is simplified forever, and ruleset 6 alone exchanges -2 and -3 in @5+-2*-3 forever. Partial: rulesets 0, 1, 2, 4 and 5 end for every expression; ruleset 6 ends unless two negated numbers are multiplied and evaluating constants fails after its first application; simplify ends unless an expression on the way makes ruleset 3 run forever, or ruleset 6 in the said case. Missing: a description of the expressions for which ruleset 3 ends. Comparison of doubles is assumed to respect equality, and 1 to equal itself."
  },
  {
   "property": "C77",
   "status": "partial",
   "theorems": [
    "Verif.SimplifyProps.C77_hidden",
    "Verif.SimplifyErrors.C77_unloaded_partial",
    "Verif.SimplifyErrors.C77_ground_partial",
    "Verif.SimplifyErrors.C77_spurious_partial"
   ],
   "note": "Violated with the shipped rules: 0/0 and @5*0 become 0. Proved without rules for all expressions and evaluations; with rules no error out of nowhere (over the reals, expressions without derivatives, up to the rules of C75)."
  },
  {
   "property": "C78",
   "status": "proved",
   "theorems": [
    "Verif.SimplifyProps.C78_operators",
    "Verif.SimplifyProps.C78_derivatives"
   ],
   "note": ""
  },
  {
   "property": "C79",
   "status": "proved",
   "theorems": [
    "Verif.SimplifyProps.C79_result",
    "Verif.SimplifyProps.C79_evaluated",
    "Verif.SimplifyProps.C79_error",
    "Verif.SimplifyProps.C79_keeps"
   ],
   "note": ""
  },
  {
   "property": "C80",
   "status": "partial",
   "theorems": [
    "Verif.SimplifyProps.C80_safe",
    "Verif.SimplifyProps.C80_conditions",
    "Verif.SimplifyProps.C80_session",
    "Verif.SimplifyProps.C80_evaluation_partial"
   ],
   "note": "simplify is proved safe for every expression; evaluation in a session under the conditions of C34."
  },
  {
   "property": "C81",
   "status": "proved",
   "theorems": [
    "Verif.TrieProps.C81_iteration",
    "Verif.TrieProps.C81_next",
    "Verif.TrieProps.C81_first",
    "Verif.TrieProps.C81_no_current"
   ],
   "note": "All histories of insertions and removals; the trie is not changed during the loop. The limit of 28 characters is exact in both directions."
  },
  {
   "property": "C82",
   "status": "partial",
   "theorems": [
    "Verif.ConsoleProps.C82_layout_partial",
    "Verif.ConsoleProps.C82_plain",
    "Verif.ConsoleProps.C82_messages",
    "Verif.ConsoleProps.C82_parser_error",
    "Verif.ConsoleProps.C82_table_args",
    "Verif.ConsoleProps.C82_table",
    "Verif.ConsoleProps.C82_definition",
    "Verif.ConsoleProps.C82_newline",
    "Verif.ConsoleProps.C82_step_unmarked"
   ],
   "note": "Proved for all parser errors, in every line and in arguments of table and definitions, and for all messages without newline. Violated for the messages of cmd_table.c:87,111,131, which end with a newline (C82_newline, C82_step_unmarked)."
  },
  {
   "property": "C83",
   "status": "partial",
   "theorems": [
    "Verif.ConsoleProps.C83_nodes",
    "Verif.ConsoleProps.C83_evaluation_partial"
   ],
   "note": "Nodes and tokens for all inputs. Reports for all inputs, without rules or with the shipped ones, in sessions as in C32 (no brackets in definitions, no operator removed before a definition); in other sessions the expansion itself can crash (C32, C34)."
  },
  {
   "property": "C84",
   "status": "partial",
   "theorems": [
    "Verif.MainProps.C84_cases",
    "Verif.MainProps.C84_unrecognized",
    "Verif.MainProps.C84_help",
    "Verif.MainProps.C84_version",
    "Verif.MainProps.C84_commands",
    "Verif.MainProps.C84_input",
    "Verif.MainProps.C84_as_typed_partial",
    "Verif.MainProps.C84_quit",
    "Verif.MainProps.C84_comment"
   ],
   "note": "All of it proved for every argument list but \"as if typed in\", which is violated by quit (evaluated as a variable), comments and blank arguments (errors): C84_quit, C84_comment; proved for all other commands."
  },
  {
   "property": "C85",
   "status": "proved",
   "theorems": [
    "Verif.DrawingProps.C85_same_text",
    "Verif.DrawingProps.C85_width"
   ],
   "note": "Model/Drawing prints with colours by the same function as without (tree_to_string.c has one function with a flag); what is visible is defined in Spec/Drawing."
  },
  {
   "property": "C86",
   "status": "partial",
   "theorems": [
    "Verif.DrawingProps.C86_picture_partial",
    "Verif.DrawingProps.C86_deep",
    "Verif.DrawingProps.C86_witness"
   ],
   "note": "Proved for trees of up to 33 levels; beyond, the code shifts a 32 bit number by 32 or more bits, which is undefined (every such tree, C86_deep)."
  },
  {
   "property": "C87",
   "status": "partial",
   "theorems": [
    "Verif.HelpProps.C87_help",
    "Verif.HelpProps.C87_short",
    "Verif.HelpProps.C87_asked",
    "Verif.HelpProps.C87_sections",
    "Verif.HelpProps.C87_commands",
    "Verif.HelpProps.C87_functions",
    "Verif.HelpProps.C87_operators",
    "Verif.HelpProps.C87_tables",
    "Verif.HelpProps.C87_constants",
    "Verif.HelpProps.C87_constants_text",
    "Verif.HelpProps.C87_once",
    "Verif.HelpProps.C87_wrapped_partial",
    "Verif.HelpProps.C87_too_wide",
    "Verif.HelpProps.C87_degree",
    "Verif.HelpProps.C87_short_line"
   ],
   "note": "All of it holds but the width: a line is ended only behind the operator that does not fit (C87_too_wide: 87 columns), C87_wrapped_partial says what holds instead. C87_help needs definitions without brackets (others can abort, see C32). help operators is given to the byte (C87_operators); the line of csound is one column short (C87_short_line)."
  },
  {
   "property": "C88",
   "status": "proved",
   "theorems": [
    "Verif.TableProps.C88_table",
    "Verif.TableProps.C88_words"
   ],
   "note": "Over the whole command, in both modes; definitions are without brackets (others can abort the program, C32). C88_words discharges the hypothesis about names for the shipped rules. How numbers are rendered is a parameter; Printf.fixed10 and Printf.general10 are renderings that meet the hypotheses."
  },
  {
   "property": "C89",
   "status": "proved",
   "theorems": [
    "Verif.PrintfProps.C89_style",
    "Verif.PrintfProps.C89_read",
    "Verif.PrintfProps.C89_exact",
    "Verif.PrintfProps.C89_integers",
    "Verif.PrintfProps.C89_fixed",
    "Verif.PrintfProps.C89_sign",
    "Verif.PrintfProps.C89_scientific"
   ],
   "note": "printf and strtod are modelled after the C standard with correct rounding (Model/Printf); signs of zero and NaN are not modelled."
  },
  {
   "property": "C90",
   "status": "partial",
   "theorems": [
    "Verif.EvaluationProps.C90_prints",
    "Verif.EvaluationProps.C90_again_partial",
    "Verif.EvaluationProps.C90_names",
    "Verif.EvaluationProps.C90_exponent_witness"
   ],
   "note": "Violated for constants that are printed with an exponent: 1/100000 is printed 1e-05, which is read as 1*e-05 (C90_exponent_witness). C90_again_partial has ordinary constants, and no user function named z (which the shipped rules use). C90_names discharges the hypothesis about names for the shipped rules."
  },
  {
   "property": "C91",
   "status": "partial",
   "theorems": [
    "Verif.TranscriptProps.C91_same",
    "Verif.TranscriptProps.C91_answers",
    "Verif.TranscriptProps.C91_input",
    "Verif.TranscriptProps.C91_load",
    "Verif.TranscriptProps.C91_script",
    "Verif.TranscriptProps.C91_total",
    "Verif.TranscriptProps.C91_main",
    "Verif.TranscriptProps.C91_commands",
    "Verif.TranscriptProps.C91_stdin",
    "Verif.TranscriptProps.C91_defined",
    "Verif.TranscriptProps.C91_cleared"
   ],
   "note": "Answers, files, scripts, command lines and notices for all sessions and inputs. C91_total (writing never fails) is for definitions without brackets, and functions that are cleared all together; the conditions on printf and simplify (Decent) are proved for the shipped ones (ccalc_decent). Prompts of readline and the interleaving of both streams are not modelled."
  },
  {
   "property": "C92",
   "status": "partial",
   "theorems": [
    "Verif.TranscriptProps.C92_command_partial",
    "Verif.TranscriptProps.C92_returns",
    "Verif.TranscriptProps.C92_status_partial",
    "Verif.TranscriptProps.C92_commands",
    "Verif.TranscriptProps.C92_main_partial",
    "Verif.TranscriptProps.C92_load"
   ],
   "note": "Violated by load: it succeeds although commands of its file failed, or the rules are malformed, with a report on standard error (C92_load). Proved for every command but load, and for all runs of the program without load."
  },
  {
   "property": "C93",
   "status": "proved",
   "theorems": [
    "Verif.DoublesProps.C93_nearest",
    "Verif.DoublesProps.C93_exact",
    "Verif.DoublesProps.C93_even",
    "Verif.DoublesProps.C93_overflow",
    "Verif.DoublesProps.C93_number",
    "Verif.DoublesProps.C93_monotone",
    "Verif.DoublesProps.C93_order",
    "Verif.DoublesProps.C93_operators",
    "Verif.DoublesProps.C93_expressions",
    "Verif.DoublesProps.C93_typed"
   ],
   "note": "The functions of the C library (pow, fmod, sin, ...) are parameters assumed to return doubles. The sign of zero is not modelled. That the machine's arithmetic is that of IEEE 754 is part of the trusted base; the model of it is proved correct against the set of the doubles."
  },
  {
   "property": "C94",
   "status": "partial",
   "theorems": [
    "Verif.DoublesProps.C94_floor",
    "Verif.DoublesProps.C94_ceil",
    "Verif.DoublesProps.C94_trunc",
    "Verif.DoublesProps.C94_round",
    "Verif.DoublesProps.C94_special",
    "Verif.DoublesProps.C94_frac_partial",
    "Verif.DoublesProps.C94_frac_range",
    "Verif.DoublesProps.C94_frac_one",
    "Verif.DoublesProps.C94_sgn",
    "Verif.DoublesProps.C94_max",
    "Verif.DoublesProps.C94_min",
    "Verif.DoublesProps.C94_sum",
    "Verif.DoublesProps.C94_avg_partial",
    "Verif.DoublesProps.C94_avg_overflow",
    "Verif.DoublesProps.C94_avg_tenths"
   ],
   "note": "Violated by the code for frac of small negative numbers (frac(-2^-60) = 1: C94_frac_one) and for the mean when the sum overflows (C94_avg_overflow) or is rounded (the mean of ten tenths is less than a tenth: C94_avg_tenths). frac is proved for numbers that are not negative, the mean for two arguments without overflow; the rest in full."
  },
  {
   "property": "C95",
   "status": "partial",
   "theorems": [
    "Verif.SignedZeroProps.C95_partial",
    "Verif.SignedZeroProps.C95_model",
    "Verif.SignedZeroProps.C95_errors",
    "Verif.SignedZeroProps.C95_expressions_partial",
    "Verif.SignedZeroProps.C95_root",
    "Verif.SignedZeroProps.C95_gamma",
    "Verif.SignedZeroProps.C95_shown"
   ],
   "note": "Violated by root (root(2,0) is infinite, root(2,-0) is 0: C95_root) and gamma (C95_gamma), and -0 is shown as \"-0\" (C95_shown). Proved for all other operators and all expressions without these two, with both zeros of IEEE 754 modelled; C95_model and C95_errors show that the evaluation with one zero, which the other theorems use, is this one without the sign. Functions of the C library are parameters assumed not to tell zeros apart (pow only for positive exponents, tgamma not at all)."
  },
  {
   "property": "C96",
   "status": "proved",
   "theorems": [
    "Verif.OwnershipProps.C96_copy",
    "Verif.OwnershipProps.C96_free",
    "Verif.OwnershipProps.C96_free_shared",
    "Verif.OwnershipProps.C96_copy_free",
    "Verif.OwnershipProps.C96_replace",
    "Verif.OwnershipProps.C96_substitute",
    "Verif.OwnershipProps.C96_reduce",
    "Verif.OwnershipProps.C96_becomes"
   ],
   "note": "Model/NodeHeap: nodes with addresses, any allocator that returns unused addresses; every access outside of allocated nodes is ub. tree_reduce_ops is not modelled in memory."
  },
  {
   "property": "C97",
   "status": "proved",
   "theorems": [
    "Verif.OwnershipProps.C97_list",
    "Verif.OwnershipProps.C97_apply",
    "Verif.OwnershipProps.C97_bound",
    "Verif.OwnershipProps.C97_places",
    "Verif.OwnershipProps.C97_exists"
   ],
   "note": "The search of the matching is that on values (it only reads); its result is given as places in memory, which exist by C97_exists."
  },
  {
   "property": "C98",
   "status": "proved",
   "theorems": [
    "Verif.ParserMemoryProps.C98_error",
    "Verif.ParserMemoryProps.C98_uninit",
    "Verif.ParserMemoryProps.C98_success",
    "Verif.ParserMemoryProps.C98_discard",
    "Verif.ParserMemoryProps.C98_defined",
    "Verif.ParserMemoryProps.C98_calculator",
    "Verif.ParserMemoryProps.C98_lost_witness"
   ],
   "note": "Simulation of Model/Parser by Model/ParserHeap; the undefined behaviour of C14 is excluded where the result is described. The witness shows that operators without operands are lost."
  },
  {
   "property": "C99",
   "status": "proved",
   "theorems": [
    "Verif.SuffixProps.C99_same",
    "Verif.SuffixProps.C99_finds"
   ],
   "note": "The vectors of match_parameter_lists and fill_suffix statement by statement (Model/SuffixTree), size_t arithmetic modulo 2^64, every vec_get checked; refinement to the enumeration of Model/Matching. Hypothesis: nodes have fewer than 2^62 children."
  }
 ]
}
