{"id": "C01", "title": "Trie is a faithful finite map", "statement": "After any sequence of trie_add_str / trie_remove_str calls with legal characters, trie_contains(s) is true exactly for the strings added and not removed since, the payload returned is the one attached by the latest successful add, and a duplicate add returns NULL and changes nothing.", "quantifier": "every finite sequence of add/remove operations and every query string", "why_tests_cant": "Tests exercise a handful of insertion orders; correctness depends on arbitrary interleavings of shared prefixes and removals.", "anchors": ["src/util/trie.c:trie_add_str", "src/util/trie.c:trie_remove_str", "src/util/trie.c:trie_contains"]}
{"id": "C02", "title": "Longest keyword prefix", "statement": "trie_longest_prefix(t, s) returns the length of the longest string stored in t that is a prefix of s, and 0 when none is; the payload returned belongs to that string.", "quantifier": "every trie content and every query string", "why_tests_cant": "The tokenizer's maximal-munch behaviour rests on it for every operator set; finitely many tests cannot cover all sets.", "anchors": ["src/util/trie.c:trie_longest_prefix"]}
{"id": "C03", "title": "Trie keeps no dead branches and counts successors exactly", "statement": "After any sequence of adds and removes each node's successor counter equals the number of its non-NULL successors and every childless node except the root ends a stored string, so removing everything returns the trie to its initial state and counters never wrap.", "quantifier": "every operation sequence", "why_tests_cant": "A leak or a wrong counter only shows for particular removal orders of strings with shared prefixes.", "anchors": ["src/util/trie.c:remove_rec", "src/util/trie.c:trie_count"]}
{"id": "C04", "title": "Vector is a growable sequence and never writes outside its buffer", "statement": "Any sequence of push/pop/get/ensure/trim/clear operations behaves like operations on a list, and at every point the element count does not exceed the allocated capacity, so every element written lies inside the buffer.", "quantifier": "every operation sequence, every start capacity including 0", "why_tests_cant": "Buffer growth bugs appear only at specific capacities/element counts.", "anchors": ["src/util/vector.c:vec_ensure_size", "src/util/vector.c:vec_push", "src/util/vector.c:vec_push_many", "src/util/vector.c:vec_pop", "src/util/vector.c:vec_trim"]}
{"id": "C05", "title": "String builder concatenates", "statement": "After any sequence of appends the string of the builder is the concatenation of everything appended, stored NUL-terminated inside the allocated buffer.", "quantifier": "every start size and every sequence of appended strings", "why_tests_cant": "The two-pass vsnprintf logic depends on remaining space versus length; off-by-one only shows at exact boundaries.", "anchors": ["src/util/string_builder.c:vstrbuilder_append", "src/util/string_builder.c:strbuilder_append", "src/util/string_builder.c:strbuilder_append_char"]}
{"id": "C06", "title": "Doubly linked list refines a sequence", "statement": "After any sequence of inserts and deletes the forward chain from the first node, the backward chain from the last node and the stored count describe one and the same sequence, and lookup by index returns the element at that index whichever end it walks from.", "quantifier": "every operation sequence", "why_tests_cant": "Pointer-surgery errors depend on position (head, tail, middle, singleton) and history.", "anchors": ["src/util/linked_list.c:list_append", "src/util/linked_list.c:list_insert_after", "src/util/linked_list.c:list_delete_node", "src/util/linked_list.c:list_get_node"]}
{"id": "C07", "title": "Tokenization is lossless", "statement": "For every input and every keyword set, the tokens are non-empty and their concatenation is the input, so no character is lost, duplicated or reordered.", "quantifier": "every input string and every keyword set", "why_tests_cant": "Unbounded input language and arbitrary keyword sets.", "anchors": ["src/engine/parsing/tokenizer.c:tokenize"]}
{"id": "C08", "title": "Token boundaries are canonical", "statement": "Each token is a maximal run of letters, a maximal run of digits, the longest keyword at its position, or a single other character; a space is always a token of its own.", "quantifier": "every input string and every keyword set", "why_tests_cant": "Boundary behaviour depends on neighbouring characters; combinatorially many.", "anchors": ["src/engine/parsing/tokenizer.c:tokenize", "src/util/trie.c:trie_longest_prefix"]}
{"id": "C09", "title": "Error position points at the offending token", "statement": "On a parser error the reported token index is at most the number of tokens and the column under which the caret is printed is the offset of that token in the input text.", "quantifier": "every malformed input", "why_tests_cant": "The column is computed from token lengths and so is right only if tokenization is lossless on every input.", "anchors": ["src/engine/parsing/parser.c:parse_tokens", "src/client/core/arith_context.c:show_error_at_token"]}
{"id": "C10", "title": "Operator lookup reflects the definition history", "statement": "After any sequence of operator additions and deletions, looking up a name with a placement yields exactly the operator last successfully added under that name and placement and not deleted since; an addition is refused exactly when name and placement are taken or an infix operator of the same precedence has another associativity.", "quantifier": "every history of additions and deletions", "why_tests_cant": "Histories are unbounded.", "anchors": ["src/engine/parsing/context.c:ctx_add_op", "src/engine/parsing/context.c:ctx_delete_op", "src/engine/parsing/context.c:ctx_lookup_op"]}
{"id": "C11", "title": "Infix operators of equal precedence agree on associativity", "statement": "In every reachable context two infix operators of the same precedence have the same associativity.", "quantifier": "every history of additions and deletions", "why_tests_cant": "Invariant over unbounded histories; the shunting-yard result is ambiguous without it.", "anchors": ["src/engine/parsing/context.c:ctx_add_op", "src/engine/parsing/context.c:ctx_add_ops"]}
{"id": "C12", "title": "Operator identity is unique", "statement": "In every reachable context different operators have different ids, so that comparing ids (as tree comparison, operator search and pattern matching do) identifies the operator.", "quantifier": "every history of additions and deletions", "why_tests_cant": "Needs a particular delete/add history.", "anchors": ["src/engine/parsing/context.c:ctx_add_op", "src/engine/parsing/context.c:ctx_delete_op", "src/engine/tree/tree_util.c:tree_equals", "src/engine/tree/tree_util.c:find_op"]}
{"id": "C13", "title": "Keyword set is the set of operator names", "statement": "In every reachable context the tokenizer's keyword set is exactly the set of names of the operators in the context.", "quantifier": "every history of additions and deletions", "why_tests_cant": "Needs operators sharing a name and a deletion.", "anchors": ["src/engine/parsing/context.c:ctx_delete_op", "src/engine/parsing/context.c:ctx_add_op"]}
{"id": "C14", "title": "Parsing never crashes", "statement": "For every context and every token sequence the parser terminates with a result or an error code without invalid memory access.", "quantifier": "every token sequence and every context", "why_tests_cant": "Malformed input space is unbounded; a crash hides in nesting combinations.", "anchors": ["src/engine/parsing/parser.c:parse_tokens", "src/engine/parsing/parser.c:parse_input"]}
{"id": "C15", "title": "Successful parse delivers exactly one complete tree", "statement": "Whenever the parser reports success, a tree has been produced, nothing is left over on the operand stack, and the tree accounts for every operand and operator token of the input.", "quantifier": "every token sequence and every context", "why_tests_cant": "Requires an invariant over all parser states.", "anchors": ["src/engine/parsing/parser.c:parse_tokens", "src/engine/parsing/parser.c:op_pop_and_insert"]}
{"id": "C16", "title": "Parsed trees respect operator arity", "statement": "Every operator node of a successfully parsed tree has exactly as many children as its operator's arity unless the arity is dynamic, so the evaluator never reads an argument that does not exist.", "quantifier": "every token sequence and every context", "why_tests_cant": "Follows only from an invariant on the stacks for all inputs.", "anchors": ["src/engine/parsing/parser.c:op_pop_and_insert", "src/client/core/arith_evaluation.c:arith_op_evaluate"]}
{"id": "C17", "title": "Printed tokens parse back to the same tree", "statement": "For every expression tree over a context, parsing the token sequence the printer emits yields the same tree: the printer puts parentheses wherever precedence or associativity require them.", "quantifier": "every tree and every context", "why_tests_cant": "Trees are unbounded; parenthesization errors need particular nestings of operators.", "anchors": ["src/engine/tree/tree_to_string.c:tree_to_str", "src/engine/parsing/parser.c:parse_tokens"]}
{"id": "C18", "title": "Printed text parses back to the same tree", "statement": "For the calculator's own context extended by any user functions, tokenizing and parsing the text printed for a tree (without negative or exponent-notation constants) yields the same tree.", "quantifier": "every tree over the arithmetic context and any set of user functions", "why_tests_cant": "Adjacent tokens may merge when tokenized; only a proof covers all neighbours.", "anchors": ["src/engine/tree/tree_to_string.c:tree_to_str", "src/engine/parsing/tokenizer.c:tokenize", "src/engine/parsing/parser.c:parse_input"]}
{"id": "C19", "title": "Juxtaposition means multiplication", "statement": "Parsing input with juxtaposed operands gives the tree that results from writing the glue operator explicitly between them.", "quantifier": "every token sequence", "why_tests_cant": "All placements of juxtaposition.", "anchors": ["src/engine/parsing/parser.c:parse_tokens", "src/engine/parsing/context.c:ctx_set_glue_op"]}
{"id": "C20", "title": "Spaces between tokens are irrelevant", "statement": "Inserting or deleting space tokens anywhere in a token sequence changes neither the resulting tree nor whether and which error is reported.", "quantifier": "every token sequence and every insertion of spaces", "why_tests_cant": "Unbounded combinations.", "anchors": ["src/engine/parsing/parser.c:parse_tokens"]}
{"id": "C21", "title": "Tree comparison and copy", "statement": "A copy of a tree compares equal to it and to nothing that differs in shape, operators, names or constants; comparison is an equivalence relation on trees without NaN.", "quantifier": "every tree", "why_tests_cant": "Recursive structure; unbounded trees.", "anchors": ["src/engine/tree/tree_util.c:tree_equals", "src/engine/tree/tree_util.c:tree_copy"]}
{"id": "C22", "title": "Variable listing", "statement": "list_variables returns the distinct variable names in order of first occurrence, gives each variable node its index as id, and reports an insufficient buffer exactly when there are more distinct variables than the buffer holds.", "quantifier": "every tree and every buffer size", "why_tests_cant": "Unbounded trees, boundary at buffer size.", "anchors": ["src/engine/tree/tree_util.c:list_variables"]}
{"id": "C23", "title": "Replacing a variable is substitution", "statement": "replace_variable_nodes replaces every occurrence of the named variable and nothing else by a copy of the given tree and returns the number of occurrences.", "quantifier": "every tree, variable and replacement", "why_tests_cant": "Unbounded trees.", "anchors": ["src/engine/tree/tree_util.c:replace_variable_nodes", "src/engine/tree/tree_util.c:get_variable_nodes", "src/engine/tree/tree_util.c:count_all_variable_nodes"]}
{"id": "C24", "title": "Reduction is evaluation", "statement": "tree_reduce yields the value obtained by applying the listener bottom-up and left to right; it fails exactly when a variable or a listener error is met and then reports the first such node in evaluation order.", "quantifier": "every tree and every listener", "why_tests_cant": "Unbounded trees and listeners.", "anchors": ["src/engine/tree/tree_util.c:tree_reduce"]}
{"id": "C25", "title": "Constant folding preserves meaning", "statement": "tree_reduce_constant_subtrees does not change the value of the tree under any assignment of its variables and leaves no operator node without variables behind when it succeeds.", "quantifier": "every tree, assignment and listener", "why_tests_cant": "Unbounded trees.", "anchors": ["src/engine/tree/tree_util.c:tree_reduce_constant_subtrees"]}
{"id": "C26", "title": "Pattern matching is sound", "statement": "Every matching reported for a pattern and a tree, when substituted for the pattern's variables and list variables, reproduces the tree; and all constraints of the pattern hold under it.", "quantifier": "every pattern, tree and constraint checker", "why_tests_cant": "List variables make the search space unbounded.", "anchors": ["src/engine/transformation/matching.c:get_all_matchings", "src/engine/transformation/matching.c:get_matching", "src/engine/transformation/matching.c:match_parameter_lists"]}
{"id": "C27", "title": "Pattern matching is complete", "statement": "If some assignment of the pattern's variables reproduces the tree and satisfies the constraints, a matching is found.", "quantifier": "every pattern and tree", "why_tests_cant": "Backtracking over list lengths: missing a split only shows for particular shapes.", "anchors": ["src/engine/transformation/matching.c:get_all_matchings", "src/engine/transformation/matching.c:match_parameter_lists"]}
{"id": "C28", "title": "Pattern matching stays within the tree", "statement": "Matching never accesses children that do not exist.", "quantifier": "every pattern and tree", "why_tests_cant": "Out-of-bounds access depends on repeated list variables and particular lengths.", "anchors": ["src/engine/transformation/matching.c:match_parameter_lists", "src/engine/transformation/matching.c:nodelists_equal"]}
{"id": "C29", "title": "Rewriting replaces the matched subtree by the instantiated right side", "statement": "Applying a rule replaces one subtree that matches the left side, the first in pre-order, by the right side with all variables simultaneously substituted and list variables spliced in, and leaves the rest of the tree untouched; if no subtree matches the tree is unchanged and false is returned.", "quantifier": "every rule and every tree", "why_tests_cant": "Unbounded trees; simultaneous substitution must not re-substitute into inserted parts.", "anchors": ["src/engine/transformation/transformation.c:transform_by_matching", "src/engine/transformation/rewrite_rule.c:apply_rule", "src/engine/transformation/matching.c:find_matching"]}
{"id": "C30", "title": "Rewriting introduces no variables and keeps arities", "statement": "A rule accepted by get_rule never introduces a variable that was not in the tree, and if its list variables stand only below dynamic-arity operators the result still respects operator arities.", "quantifier": "every accepted rule and every tree", "why_tests_cant": "Quantifies over all rules and trees.", "anchors": ["src/engine/transformation/rewrite_rule.c:get_rule", "src/engine/transformation/rewrite_rule.c:apply_rule"]}
{"id": "C31", "title": "Applying a ruleset", "statement": "apply_ruleset stops after at most the given number of rewrites, reports the number of rewrites, and when it stops below the cap no rule of the set applies to the result.", "quantifier": "every ruleset, tree and cap", "why_tests_cant": "Needs all rewriting sequences.", "anchors": ["src/engine/transformation/rewrite_rule.c:apply_ruleset"]}
{"id": "C32", "title": "User functions are expanded completely and correctly", "statement": "Expanding the user-defined functions of an expression terminates, leaves no call of a user function behind, and yields the expression in which every call is replaced by the function's body with the arguments substituted simultaneously for the parameters.", "quantifier": "every set of definitions made by the definition command and every expression", "why_tests_cant": "Nested and duplicated calls, unbounded; termination cannot be tested.", "anchors": ["src/client/commands/cmd_definition.c:cmd_definition_exec", "src/client/commands/cmd_definition.c:add_function", "src/client/core/arith_context.c:arith_simplify"]}
{"id": "C33", "title": "A failed definition leaves the session unchanged", "statement": "If the definition command fails, the set of operators, their lookup, and the defined functions are as before.", "quantifier": "every session state and every input", "why_tests_cant": "All failure points must roll back.", "anchors": ["src/client/commands/cmd_definition.c:add_function"]}
{"id": "C34", "title": "Every definition input is handled without crashing", "statement": "For every input the definition command either succeeds or reports an error; it never accesses invalid memory.", "quantifier": "every session state and every input", "why_tests_cant": "Crash hides on one specific error path.", "anchors": ["src/client/commands/cmd_definition.c:add_function", "src/engine/transformation/rewrite_rule.c:get_rule"]}
{"id": "C35", "title": "Built-in operators are permanent", "statement": "No sequence of user commands removes or redefines a built-in operator, function or constant.", "quantifier": "every session history", "why_tests_cant": "Unbounded command sequences.", "anchors": ["src/client/commands/cmd_clear.c:cmd_clear_exec", "src/client/commands/cmd_definition.c:add_function"]}
{"id": "C36", "title": "Clearing", "statement": "clear removes all user functions and nothing else; clear f removes exactly f; other functions keep their meaning.", "quantifier": "every session history", "why_tests_cant": "Needs histories where clearing interferes with other functions.", "anchors": ["src/client/commands/cmd_clear.c:cmd_clear_exec", "src/client/core/arith_context.c:clear_composite_functions", "src/client/core/arith_context.c:remove_composite_function"]}
{"id": "C37", "title": "A function name keeps denoting its own definition", "statement": "After f has been defined and until it is cleared, every call f(args) is evaluated with f's own definition whatever other functions are defined or cleared meanwhile.", "quantifier": "every session history", "why_tests_cant": "Needs a specific define/clear/define history.", "anchors": ["src/client/core/arith_context.c:add_composite_function", "src/engine/parsing/context.c:ctx_add_op", "src/engine/transformation/matching.c:match_parameter_lists"]}
{"id": "C38", "title": "History references", "statement": "@k denotes the k-th most recent constant result and ans the most recent one; references beyond the recorded results are an error; failed or non-constant evaluations do not alter the history.", "quantifier": "every session history and every k", "why_tests_cant": "Unbounded histories.", "anchors": ["src/client/core/history.c:history_add", "src/client/core/history.c:history_get", "src/client/commands/cmd_evaluation.c:cmd_evaluation_exec", "src/client/core/arith_evaluation.c:arith_op_evaluate"]}
{"id": "C39", "title": "Greatest common divisor and least common multiple", "statement": "On natural numbers gcd computes the greatest common divisor and lcm the least common multiple, and the computation terminates.", "quantifier": "all natural numbers (exact arithmetic)", "why_tests_cant": "Infinitely many inputs and loop termination.", "anchors": ["src/client/core/arith_evaluation.c:euclid", "src/client/core/arith_evaluation.c:arith_op_evaluate"]}
{"id": "C40", "title": "Binomial coefficient", "statement": "n C k computes the binomial coefficient for all natural n and k.", "quantifier": "all natural numbers (exact arithmetic)", "why_tests_cant": "Infinitely many inputs.", "anchors": ["src/client/core/arith_evaluation.c:binomial"]}
{"id": "C41", "title": "Fibonacci and factorial", "statement": "fib(n) is the n-th Fibonacci number also for negative n, and n! is the factorial.", "quantifier": "all integers (exact arithmetic)", "why_tests_cant": "Infinitely many inputs.", "anchors": ["src/client/core/arith_evaluation.c:fibonacci", "src/client/core/arith_evaluation.c:arith_op_evaluate"]}
{"id": "C42", "title": "Evaluation terminates", "statement": "Evaluating any expression over finite doubles terminates.", "quantifier": "all argument values", "why_tests_cant": "Non-termination shows only for values where decrementing does not change a double.", "anchors": ["src/client/core/arith_evaluation.c:arith_op_evaluate", "src/client/core/arith_evaluation.c:euclid"]}
{"id": "C43", "title": "Table rows", "statement": "The table command evaluates the expression at start, start+step, ... up to and including end, in either direction, and terminates for every non-zero step.", "quantifier": "all start/end/step values", "why_tests_cant": "Loop termination and count for all values.", "anchors": ["src/client/commands/cmd_table.c:cmd_table_exec"]}
{"id": "C44", "title": "Table fold", "statement": "The fold result is the left fold of the fold expression over the column of successfully evaluated values, starting from the initial value.", "quantifier": "all tables", "why_tests_cant": "All columns with error rows.", "anchors": ["src/client/commands/cmd_table.c:cmd_table_exec"]}
{"id": "C45", "title": "Table column widths satisfy all cells", "statement": "The computed column widths (row heights) are such that each cell, including spanning ones, gets at least the width (height) it needs.", "quantifier": "every table content", "why_tests_cant": "Interaction of many spanning cells.", "anchors": ["src/table/table.c:satisfy_constraints", "src/table/table.c:get_dimensions"]}
{"id": "C46", "title": "Text helper for lines", "statement": "get_line_of_string(s, i) returns the i-th line of s.", "quantifier": "every string and line number", "why_tests_cant": "Edge cases at string ends.", "anchors": ["src/util/string_util.c:get_line_of_string", "src/table/table.c:get_text_width"]}
{"id": "C47", "title": "Command dispatch", "statement": "Every input line is handled by exactly one command, chosen as documented (help, table, definition, clear, load, else evaluation).", "quantifier": "every input line", "why_tests_cant": "All strings.", "anchors": ["src/client/commands/commands.c:exec_command"]}
{"id": "C48", "title": "Processing a command stream", "statement": "Blank lines and comment lines have no effect, every other line is executed exactly once and in order up to quit, and the overall result is success exactly when every executed command succeeded.", "quantifier": "every input text", "why_tests_cant": "All texts, in particular without a final newline.", "anchors": ["src/client/commands/commands.c:process_input", "src/util/console_util.c:ask_input_getline"]}
{"id": "C49", "title": "Simplification rules preserve values", "statement": "Each shipped rewrite rule preserves the value of the expression wherever both sides are defined over the reals.", "quantifier": "every shipped rule and every real assignment", "why_tests_cant": "The repository's own fuzz test for this is commented out; algebraic identities range over all reals.", "anchors": ["simplification.ruleset", "src/client/simplification/simplification.c:apply_simplification"]}
{"id": "C50", "title": "Derivative rules are correct", "statement": "Each shipped derivative rule yields the derivative of the expression.", "quantifier": "every differentiable argument", "why_tests_cant": "Analytic statement over all functions.", "anchors": ["simplification.ruleset"]}
{"id": "C51", "title": "Value-preserving rules lift to whole expressions", "statement": "Rewriting with rules that preserve values preserves the value of the whole expression, for any number of rewrites and under any assignment.", "quantifier": "every value-preserving ruleset, every expression, every assignment", "why_tests_cant": "Unbounded rewriting sequences.", "anchors": ["src/engine/transformation/rewrite_rule.c:apply_ruleset", "src/engine/transformation/rewrite_rule.c:apply_rule"]}
{"id": "C52", "title": "Rule files are read completely", "statement": "Every non-comment, non-blank line of a rule file becomes one rule including all of its constraints, or the file is rejected.", "quantifier": "every rule file", "why_tests_cant": "All texts.", "anchors": ["src/engine/transformation/rule_parsing.c:parse_rule", "src/engine/transformation/rule_parsing.c:parse_rulesets_from_file"]}
{"id": "C53", "title": "Loading reports failure", "statement": "If a ruleset file is missing or malformed, load reports failure and the previous rules stay in force.", "quantifier": "every file content", "why_tests_cant": "All malformed files.", "anchors": ["src/client/commands/cmd_load.c:cmd_load_exec", "src/client/simplification/simplification.c:init_simplification"]}
{"id": "C54", "title": "Printed table is rectangular", "statement": "All text lines printed for a table have the same visible width.", "quantifier": "every table content", "why_tests_cant": "All combinations of borders, spans and alignments.", "anchors": ["src/table/table.c:fprint_table", "src/table/table.c:get_total_width"]}
{"id": "C55", "title": "String helpers", "statement": "str_split cuts the input at the given delimiters in order and strip removes exactly the leading and trailing spaces, both staying inside the string.", "quantifier": "every string and delimiter list", "why_tests_cant": "All strings, including empty and all-space ones.", "anchors": ["src/util/string_util.c:str_split", "src/util/string_util.c:strip", "src/util/string_util.c:begins_with"]}
{"id": "C56", "title": "Negative constants are replaced by negations", "statement": "After simplification's final step no negative constant remains in a tree and its value is unchanged.", "quantifier": "every tree", "why_tests_cant": "Unbounded trees.", "anchors": ["src/client/simplification/simplification.c:replace_negative_consts"]}
{"id": "C57", "title": "The parser implements the precedence grammar", "statement": "A token sequence is accepted with tree t exactly if t is the one derivation the grammar of numbers, variables, calls, parentheses, prefix, infix and postfix operators assigns to it, where of two neighbouring operators the one binding stronger (on equal precedence the left one if they group to the left) takes the operand between them.", "quantifier": "every token sequence and every operator context", "why_tests_cant": "Token sequences and contexts are unbounded; grouping errors need particular sequences of operators.", "anchors": ["src/engine/parsing/parser.c:parse_tokens", "src/engine/parsing/parser.c:op_push", "src/engine/parsing/parser.c:op_pop_and_insert"]}
{"id": "C58", "title": "Pointers to variable nodes", "statement": "get_variable_nodes returns the number of nodes of the named variable and writes pointers to exactly the first of them in pre-order, as many as the buffer holds, to consecutive places from the start of the buffer.", "quantifier": "every tree, variable name and buffer size", "why_tests_cant": "Trees and buffer sizes are unbounded; the remaining size is threaded through the recursion.", "anchors": ["src/engine/tree/tree_util.c:get_variable_nodes"]}
{"id": "C59", "title": "Searching an operator", "statement": "find_op returns the first node in pre-order that carries the given operator's id, and NULL exactly if no node does.", "quantifier": "every tree and operator", "why_tests_cant": "Trees are unbounded.", "anchors": ["src/engine/tree/tree_util.c:find_op"]}
{"id": "C60", "title": "Splicing lists of children in place", "statement": "tree_replace_by_list replaces exactly the given child by copies of the listed trees in order; the loop of transform_matched_recursive, which runs over children while their number changes, ends and performs the simultaneous substitution, never visiting inserted trees.", "quantifier": "every tree, child index, list and matching", "why_tests_cant": "the index arithmetic depends on the lengths of all lists bound before; only an invariant over the loop covers every combination including empty lists", "anchors": ["src/engine/tree/tree_util.c:tree_replace_by_list", "src/engine/transformation/transformation.c:transform_matched_recursive"]}
{"id": "C61", "title": "Constraint language of rules", "statement": "The constraint checker accepts an instantiated constraint exactly if it has a non-zero value: comparisons compare values, type() yields the kind of an expression and equal() compares expressions, whatever expressions were substituted.", "quantifier": "every constraint over the propositional context and every expression substituted into it", "why_tests_cant": "constraints are evaluated in three passes over an instantiated tree of unbounded size, with operators selected by number", "anchors": ["src/client/simplification/propositional_evaluation.c:propositional_checker", "src/client/simplification/propositional_evaluation.c:prop_op_evaluate", "src/client/simplification/propositional_context.c:init_propositional_ctx", "src/engine/tree/tree_util.c:tree_reduce_ops"]}
{"id": "C62", "title": "Exhaustive application of a simplification ruleset", "statement": "When apply_simplification returns, no rule of the set applies to the result (up to the final rewriting of negative constants), and if all rules preserve values so does the whole loop including constant folding.", "quantifier": "every ruleset, constraint checker, expression and assignment", "why_tests_cant": "concerns all rulesets and unboundedly long rewrite sequences interleaved with folding", "anchors": ["src/client/simplification/simplification.c:apply_simplification"]}
{"id": "C63", "title": "Loading rules does not depend on the session", "statement": "Initialising the simplification after any history of definitions succeeds and recognises derivatives exactly as in a fresh session.", "quantifier": "every session history before load", "why_tests_cant": "The helper patterns are parsed in the shared context, so the outcome depends on which functions and variables the user defined before.", "anchors": ["src/client/simplification/simplification.c:init_simplification", "src/engine/parsing/parser.c:parse_easy"]}
{"id": "C64", "title": "Powers", "statement": "x^y is evaluated without error whenever x^y is a real number (in particular for all integers y if x is not 0), and to what the C library computes.", "quantifier": "all finite x and y", "why_tests_cant": "Case distinctions on signs of arbitrary numbers.", "anchors": ["src/client/core/arith_evaluation.c:arith_op_evaluate"]}
{"id": "C65", "title": "Statistics functions", "statement": "max and min of any number of finite arguments are the greatest and least of them; sum, prod, avg and var are the sum, product, mean and population variance.", "quantifier": "all argument lists", "why_tests_cant": "Argument lists of every length.", "anchors": ["src/client/core/arith_evaluation.c:arith_op_evaluate", "src/client/core/arith_evaluation.c:variance"]}
{"id": "C66", "title": "Operators denote the functions of their descriptions", "statement": "Over exact real arithmetic every built-in function, operator and constant evaluates to the value its description in the help text names, wherever that value exists; arguments outside the domain are an error.", "quantifier": "all built-in operators and all real argument lists", "why_tests_cant": "The arguments range over all reals.", "anchors": ["src/client/core/arith_evaluation.c:arith_op_evaluate", "src/client/commands/cmd_help.c:OP_DESCRIPTIONS"]}
{"id": "C67", "title": "Loading a file is typing in its content", "statement": "`load <file>` executes the lines of the file, files loaded by it included, with the same effect on the session as typing them in at that place; quit in a file ends the program.", "quantifier": "every file content, every nesting and every surrounding text", "why_tests_cant": "Ranges over all texts and all nestings of files.", "anchors": ["src/client/commands/cmd_load.c:cmd_load_exec", "src/client/commands/commands.c:process_input", "src/client/commands/commands.c:exec_command"]}
{"id": "C68", "title": "Session invariant of the whole program", "statement": "After any sequence of inputs of any kind the session state is consistent (context, user functions and names agree), and a command other than load changes the history only by appending the constant result of an evaluation or the result of a table fold.", "quantifier": "every sequence of inputs", "why_tests_cant": "Unbounded interleavings of all commands.", "anchors": ["src/client/commands/commands.c:exec_command", "src/client/commands/cmd_table.c:cmd_table_exec", "src/client/core/history.c:history_add"]}
{"id": "C69", "title": "Tables of rows print exactly the rows", "statement": "A table filled row by row with texts, with the alignments of the columns set before or afterwards, is printed as the grid of these texts: every column as wide as its widest line, every row as high as its highest text, every line padded on the side its alignment names.", "quantifier": "every list of rows of at most 11 texts whose escape sequences are complete and separated, every list of alignments", "why_tests_cant": "Ranges over all contents, ragged rows and multi-line texts.", "anchors": ["src/table/table.c:add_text_cell", "src/table/table.c:get_dimensions", "src/table/table.c:print_text", "src/table/table.c:fprint_table"]}
{"id": "C70", "title": "Line counters agree with the lines", "statement": "After any calls the counter of a column (row) is the number of lines that cells and the column (row) ask for, so that it never wraps around and room is reserved exactly where a line is.", "quantifier": "every sequence of calls", "why_tests_cant": "Counters are kept up by five functions that may be called in any order.", "anchors": ["src/table/table.c:set_vline", "src/table/table.c:set_hline", "src/table/table.c:override_left_border", "src/table/table.c:override_above_border", "src/table/table.c:set_span"]}
{"id": "C71", "title": "Spans divide a table into rectangles", "statement": "After any calls every cell lies in the rectangle of exactly one cell without parent, namely the one its parent pointer names.", "quantifier": "every sequence of calls", "why_tests_cant": "Overlaps of arbitrarily many spans.", "anchors": ["src/table/table.c:set_span"]}
{"id": "C72", "title": "A table without spans shows exactly its grid", "statement": "Whatever calls but set_span fill a table, print_table prints, row by row, a line above the row iff one was asked for, then the lines of the texts; columns are as wide and rows as high as the largest text in them; texts are aligned horizontally and vertically as set for the cell, else for the column; lines are where they were asked for, and where they meet stands the character whose arms are exactly the lines there.", "quantifier": "every sequence of calls without spans, every text", "why_tests_cant": "The output depends on all calls together: sizes, counters, defaults and overrides.", "anchors": ["src/table/table.c:fprint_table", "src/table/table.c:print_intersection_char", "src/table/table.c:print_text", "src/table/table.c:get_border_above", "src/table/table.c:get_border_left"]}
{"id": "C73", "title": "Texts are never overwritten and stay in order", "statement": "As long as no position is set, every text that is added goes to a free cell, and the filled cells, read row by row, hold exactly the added texts in the order of the calls, whatever spans, lines and rows are added in between.", "quantifier": "every sequence of calls without set_position", "why_tests_cant": "Which cells are free depends on all spans of earlier rows.", "anchors": ["src/table/table.c:add_text_cell", "src/table/table.c:next_row", "src/table/table.c:set_span"]}
{"id": "C74", "title": "A boxed table has a closed frame", "statement": "make_boxed draws lines above the first and the last row and left of the first and of a new last column and changes nothing else; a table without spans whose last row is blank is then printed with corners at its four ends and vertical lines at both ends of all other lines.", "quantifier": "every table without spans and lines of single cells, both styles", "why_tests_cant": "Any number of rows and columns with any further lines.", "anchors": ["src/table/table.c:make_boxed", "src/table/table.c:set_all_vlines", "src/table/table.c:fprint_table"]}
{"id": "C75", "title": "Simplification keeps values", "statement": "If simplification with the shipped rules ends with a result, the result has every value the expression has, at every assignment of the variables.", "quantifier": "every expression over the built-in operators, every assignment", "why_tests_cant": "135 rules interact in loops; a wrong value needs a certain chain of rules.", "anchors": ["src/client/simplification/simplification.c:simplify", "simplification.ruleset"]}
{"id": "C76", "title": "Simplification ends", "statement": "Simplification with the shipped rules ends for every expression.", "quantifier": "every expression", "why_tests_cant": "Non-termination cannot be observed, and its absence not shown, by running finitely many expressions.", "anchors": ["src/client/simplification/simplification.c:simplify", "src/client/simplification/simplification.c:apply_simplification", "simplification.ruleset"]}
{"id": "C77", "title": "Errors of evaluation are reported exactly", "statement": "simplify reports an error of the evaluation iff a part of the expression without variables has no value, and reports it at such a part.", "quantifier": "every expression, every evaluation of operators", "why_tests_cant": "Rules may delete or create the part with the error depending on everything around it.", "anchors": ["src/client/simplification/simplification.c:simplify", "src/engine/tree/tree_util.c:tree_reduce_constant_subtrees"]}
{"id": "C78", "title": "Derivatives in shorthand mean derivatives by the variable", "statement": "simplify replaces t' by the derivative of t by its only variable, refuses it if there is more than one, and leaves neither ' nor deriv in a result.", "quantifier": "every expression with any nesting of derivatives", "why_tests_cant": "The loop works on trees with any number of shorthands inside each other.", "anchors": ["src/client/simplification/simplification.c:apply_derivatives"]}
{"id": "C79", "title": "Results of simplify are clean", "statement": "A result of simplify contains no derivative, no operation on constants but negation and no negative constant, only variables of the expression (and the z of the shorthand), and only built-in operators; errors are reported at tokens of the expression.", "quantifier": "every expression, every rule of the shipped set in any order of application", "why_tests_cant": "Rules create operators and constants; the last phases must remove them in all cases.", "anchors": ["src/client/simplification/simplification.c:simplify", "src/client/simplification/simplification.c:apply_derivatives"]}
{"id": "C80", "title": "Simplification accesses no invalid memory", "statement": "simplify with the shipped rules never dereferences a null pointer, never indexes an array out of bounds and never stops the program; neither does any evaluation in a session that uses it.", "quantifier": "every expression, every session", "why_tests_cant": "Match buffers and constraints are indexed by variable ids which depend on the rules and on earlier matches.", "anchors": ["src/client/simplification/simplification.c:simplify", "src/client/simplification/propositional_evaluation.c:propositional_checker", "src/engine/transformation/matching.c:find_matching"]}
{"id": "C81", "title": "A loop over a trie meets every string once, in order", "statement": "Iterating over a trie until NULL hands out every stored string exactly once, with its payload and in alphabetical order, and leaves the iterator as a new one; the limit of the iterator is exact: with all strings of at most 28 characters nothing fails, with a longer one the program stops with a report and never accesses memory outside of its arrays.", "quantifier": "every history of insertions and removals", "why_tests_cant": "The iterator is a depth-first search that is interrupted at every string and resumed from two arrays; its state must be right for every shape of trie and every position.", "anchors": ["src/util/trie.c:find_terminal", "src/util/trie.c:get_next", "src/util/trie.c:trie_get_iterator", "src/util/trie.c:trie_get_current_string"]}
{"id": "C82", "title": "Errors are marked under the text they belong to", "statement": "The report of an error in interactive mode is one line which has marks (caret and tildes) in exactly the columns in which the offending token was typed, or in the first column behind the expression if it ends too early; also if the expression is an argument of the table command or the right side of a definition. Otherwise there are only spaces and the message.", "quantifier": "every line, every error, every message", "why_tests_cant": "The column is computed from the lengths of all tokens before and the place of the argument in a line in which delimiters and blanks were overwritten; the message may be left or right of the mark.", "anchors": ["src/util/console_util.c:report_error_at", "src/client/core/arith_context.c:show_error_at_token", "src/client/core/arith_context.c:arith_parse_raw", "src/client/commands/cmd_table.c:cmd_table_exec", "src/client/commands/cmd_definition.c:add_function"]}
{"id": "C83", "title": "Errors of the evaluation point at something that was typed", "statement": "Each node of a parsed expression remembers the token it was read from. If the evaluation or simplification of an expression fails, also in the body of a user function or in an expression made by rules, the report reads no memory outside of the vector of tokens and marks exactly the columns of a token of the typed expression which belongs to one of its operators, functions or constants.", "quantifier": "every session, every expression, every error", "why_tests_cant": "Rules and user functions build nodes that were never typed; the token index is handed on through copies, matchings and replacements and used as an index after all transformations.", "anchors": ["src/client/core/arith_context.c:arith_simplify", "src/client/core/arith_context.c:show_error_at_token", "src/engine/transformation/rewrite_rule.c:apply_rule", "src/engine/parsing/parser.c:parse_tokens", "src/client/simplification/simplification.c:simplify"]}
{"id": "C84", "title": "The command line does what its arguments say", "statement": "Arguments before the first -c/--commands are switches, any other makes the program fail without executing anything. Help takes precedence over the version, both over everything else. Arguments after -c are executed in order as if typed in, until the first failure, and the exit status tells whether all succeeded; afterwards standard input is read if and only if -i was given. Without -c standard input is processed and its status returned. The license notice appears only on a terminal and not with -q.", "quantifier": "every list of arguments, every standard input", "why_tests_cant": "The switches live in a trie with pointers to flags; the number of combinations of arguments, commands and ways to fail is unbounded.", "anchors": ["src/client/main.c:main", "src/client/main.c:parse_arg", "src/client/main.c:add_switch", "src/client/commands/commands.c:process_input"]}
{"id": "C85", "title": "Colours change nothing but the colours", "statement": "tree_to_str with colours returns iff it does without; after removing the escape sequences the two texts are the same. No two escape sequences follow each other in it, so the table module finds for it the width of the text without colours.", "quantifier": "all expression trees whose names and formatted constants are printable ASCII", "why_tests_cant": "Colour codes are inserted at every leaf of trees of any shape, and the width function of the table module goes wrong exactly where two codes meet, which depends on all ways in which operators, parentheses and leaves can be adjacent.", "anchors": ["src/engine/tree/tree_to_string.c:to_str", "src/engine/tree/tree_to_string.c:tree_to_str", "src/table/table.c:console_strlen"]}
{"id": "C86", "title": "Drawings of trees show the tree", "statement": "print_tree_visually prints below each node the drawings of its children in order, each connected by a line that ends at the last child, for trees of any depth.", "quantifier": "all expression trees", "why_tests_cant": "The lines of the ancestors are kept as bits of a number and the layer in a byte; trees of any depth and any pattern of last children have to be considered.", "anchors": ["src/engine/tree/tree_to_string.c:print_tree_visually_internal", "src/engine/tree/tree_to_string.c:print_tree_visually"]}
{"id": "C87", "title": "The help shows what there is", "statement": "In every session help prints the table of commands, all built-in operators in their groups with their number of operands, and every function and constant of the user in the order of definition with its parameters and its (expanded) body, within the width of the terminal; help operators lists each built-in operator once, in the table of its kind, with its precedence, associativity, arity, description and, for constants, its current value.", "quantifier": "every history of commands, every set of user functions with printable names", "why_tests_cant": "The help walks the operator list of the live session by fixed indexes into a list that definitions change, and prints trees of any shape through the table module; whether the indexes, groups, descriptions and rows stay aligned has to hold after all histories.", "anchors": ["src/client/commands/cmd_help.c:print_short_help", "src/client/commands/cmd_help.c:print_op_table", "src/client/commands/cmd_help.c:print_ops_between", "src/client/commands/cmd_help.c:cmd_help_exec", "src/client/commands/cmd_help.c:cmd_help_check"]}
{"id": "C88", "title": "The table command prints what it computes", "statement": "In every session, `table` prints exactly the rows it computes (and nothing if it fails): one line per row, columns aligned to the right, the value or `Error`; on a terminal also a header with the variable and the expression as it was entered, and the numbers 1, 2, ... in front of the rows; below it the result of the fold, if there is one.", "quantifier": "all sessions after any sequence of inputs (definitions without brackets), all inputs of the command, both modes of output, all renderings of numbers without control characters", "why_tests_cant": "The text depends on the widths of all cells, on user functions, on the simplification of the expression and on the mode of output; a test compares single tables, not all of them.", "anchors": ["src/client/commands/cmd_table.c:cmd_table_exec", "src/table/table.c:add_cell_fmt", "src/table/table.c:print_table"]}
{"id": "C89", "title": "Constants are written to ten digits and read back", "statement": "With the number formats of the program (%.10g for constants, %.10f in tables, strtod): a constant from 0.0001 to 9999999999 (and 0) is written with digits and a point only; the text is read as the double next to the number rounded to ten digits, and that one is written the same way again. Numbers entered with at most ten digits come back exactly; integers below 10^10 are written with their own digits. Numbers in tables are the nearest ones with ten places.", "quantifier": "all doubles (all rational numbers, with correct rounding)", "why_tests_cant": "There are 2^64 doubles; which of them round to what decimal, and which decimals round back, depends on ties and on the distance of neighbouring doubles, where examples say nothing about the others.", "anchors": ["src/engine/tree/tree_to_string.c:to_str", "src/engine/parsing/parser.c:try_parse_constant", "src/client/commands/cmd_table.c:cmd_table_exec"]}
{"id": "C90", "title": "Printed results can be entered again", "statement": "In every session the result of an evaluation is printed in one line (behind `= ` in interactive mode), printing never fails, and the text, entered again in the same session, is read as the same expression, with constants to ten digits, and printed in the same way.", "quantifier": "all sessions after any sequence of inputs (definitions without brackets), all inputs that are evaluated", "why_tests_cant": "It relates parser, expansion of functions, simplification, printer and number formats over all expressions and all sets of user functions.", "anchors": ["src/client/commands/cmd_evaluation.c:cmd_evaluation_exec", "src/client/core/arith_context.c:arith_parse", "src/engine/tree/tree_to_string.c:tree_to_str"]}
{"id": "C91", "title": "Output consists of the answers to the commands", "statement": "If the program is not interactive, standard output consists of the answers to the commands, in their order, and nothing else: results of evaluations, tables and help texts; definitions, clear and load have none, and a loaded file counts as its lines (also in interactive mode). In interactive mode a definition and a removal of functions are answered by one line that tells whether the function has parameters. Writing never fails and does not change what the commands do: every command that returns does so with its output.", "quantifier": "all sessions, all inputs, all files and nestings of load, all command lines and standard inputs", "why_tests_cant": "A transcript test fixes one script; that nothing else is ever written, in no state and for no nesting of files, is a statement about all scripts.", "anchors": ["src/client/commands/commands.c:process_input", "src/client/commands/commands.c:exec_command", "src/client/commands/cmd_evaluation.c:cmd_evaluation_exec", "src/client/commands/cmd_definition.c:add_function", "src/client/commands/cmd_clear.c:cmd_clear_exec", "src/client/commands/cmd_load.c:cmd_load_exec", "src/client/commands/cmd_table.c:cmd_table_exec", "src/client/main.c:main"]}
{"id": "C92", "title": "Failure is reported, success is silent on standard error", "statement": "A command succeeds if and only if it writes nothing to standard error; a command that fails writes complete lines there and nothing to standard output. The exit status of the program is success if and only if nothing was written to standard error. If commands are given as arguments, the first that fails ends the program, and its number is reported.", "quantifier": "all sessions, all inputs, all command lines and standard inputs", "why_tests_cant": "It speaks about every way a command can fail (parser, checks of definitions, simplification, evaluation, tables, files) in every state; tests sample a few.", "anchors": ["src/client/commands/commands.c:exec_command", "src/client/commands/commands.c:process_input", "src/client/core/arith_context.c:arith_parse_raw", "src/client/core/arith_context.c:arith_simplify", "src/client/commands/cmd_load.c:cmd_load_exec", "src/client/main.c:main"]}
{"id": "C93", "title": "The calculator computes with doubles, and correctly rounded", "statement": "Every number that is typed in, every result of an operator and every value of an expression is a double: NaN, an infinity or m*2^e with |m| < 2^53 and -1074 <= e <= 971. The result of +, -, * and / is the double nearest to the exact result, of two equally near ones the even one; it is infinite exactly from 2^1024 - 2^970 on; rounding keeps the order and leaves doubles as they are. Comparison is that of the order of the extended numbers, and false for NaN.", "quantifier": "all numbers, all operators of the calculator, all expressions, all histories", "why_tests_cant": "It quantifies over all 2^64 doubles and all expressions; ties, subnormal numbers and the edge of the range are missed by samples.", "anchors": ["src/client/core/arith_evaluation.c:arith_op_evaluate", "src/engine/tree/tree_util.c:tree_reduce", "src/engine/parsing/parser.c:parse_tokens"]}
{"id": "C94", "title": "Rounding functions, extrema, sums and means of doubles", "statement": "For every double x, floor(x), ceil(x) and trunc(x) are the integers next to x below, above and towards zero, round(x) is the nearest integer (of two the one farther from zero), frac(x) is x without an integer and in [0,1), sgn(x) is the sign. max and min are the greatest and the least argument, infinities included. The sum of n doubles is within ((1+2^-53)^n - 1) times the sum of the sizes of the exact sum. The mean of numbers is not above all of them and not below all of them.", "quantifier": "all doubles, all numbers of arguments", "why_tests_cant": "The rounding of the last bit depends on the argument in a way that needs particular numbers to show; the bound of the sum is for all lists.", "anchors": ["src/client/core/arith_evaluation.c:arith_op_evaluate"]}
{"id": "C95", "title": "The sign of zero has no effect", "statement": "If two lists of arguments (and two histories) consist of the same numbers, that is, differ at most in the sign of zeros, then every operator yields the same number or the same error for both, and so does every expression. Equal results are shown alike.", "quantifier": "all operators of the calculator, all arguments, histories and expressions", "why_tests_cant": "Tests compare with ==, for which 0 and -0 are equal, and do not try -0 as an argument of every operator; the property relates two evaluations of every expression.", "anchors": ["src/client/core/arith_evaluation.c:arith_op_evaluate", "src/engine/tree/tree_util.c:tree_reduce", "src/client/commands/cmd_evaluation.c:cmd_evaluation_exec"]}
{"id": "C96", "title": "Trees in memory are owned: copied, freed, replaced and reduced without loss or double use", "statement": "tree_copy returns the same tree in newly allocated nodes and changes nothing else; free_tree frees every node of the tree exactly once and nothing else (and a tree that shares nodes is freed twice); tree_replace, replace_variable_nodes and tree_reduce_constant_subtrees leave in the place they are given the tree that substitution and reduction of trees say, also after an error: the nodes not used any more are freed, new ones come from malloc, and no other node and no other pointer has changed. None of them reads or frees memory that is not allocated.", "quantifier": "all trees, all memories that hold them, all places (variables and children of nodes), every malloc that returns unused addresses", "why_tests_cant": "Leaks and uses after free do not change results; tests do not look at memory, and it depends on the allocator which address is used again.", "anchors": ["src/engine/tree/node.c:free_tree", "src/engine/tree/tree_util.c:tree_copy", "src/engine/tree/tree_util.c:tree_replace", "src/engine/tree/tree_util.c:replace_variable_nodes", "src/engine/tree/tree_util.c:tree_reduce_constant_subtrees"]}
{"id": "C97", "title": "Rules are applied in memory although the matching points into the tree that is replaced", "statement": "If a rule applies to a tree, then applying it in memory, with the nodes bound by the matching being nodes of the tree that is rewritten, leaves in its place the tree the rule gives for trees as values: the right side is copied, the bound nodes are copied before the matched tree is freed, all nodes not used any more are freed once, and no other node and no other pointer changes. Every tree a matching binds is a part of the tree, so has a place in it. tree_replace_by_list puts copies of all trees of the list into the place of the child, also for lists of no or several trees.", "quantifier": "all rules, trees, matchings and memories, every malloc that returns unused addresses", "why_tests_cant": "The matching aliases the tree being rewritten; a wrong order of copying and freeing shows only with an allocator that reuses addresses.", "anchors": ["src/engine/transformation/rewrite_rule.c:apply_rule", "src/engine/transformation/transformation.c:transform_by_matching", "src/engine/transformation/transformation.c:transform_matched_recursive", "src/engine/tree/tree_util.c:tree_replace_by_list", "src/engine/transformation/matching.c:find_matching"]}
{"id": "C98", "title": "The parser loses no node and frees none twice", "statement": "If parse_tokens returns an error, or its result is discarded, all nodes it allocated have been freed, each once, and the memory is as it was before. If it returns a tree, exactly the nodes of this tree have been added to the memory; no other node was left on its stack. Its outcome does not depend on the allocator, and it never reads or frees memory that is not allocated. Operators are assumed to have at least the number of operands of their placement.", "quantifier": "all contexts (with any glue operator), all token lists, all memories, every malloc that returns unused addresses", "why_tests_cant": "Leaks are invisible to tests of results; every error can occur with any number of nodes on the stack and with incomplete nodes.", "anchors": ["src/engine/parsing/parser.c:parse_tokens", "src/engine/parsing/parser.c:op_pop_and_insert", "src/engine/parsing/parser.c:op_push", "src/engine/tree/node.c:malloc_operator_node"]}
{"id": "C99", "title": "The suffix tree of the matcher finds what enumeration finds", "statement": "match_parameter_lists distributes the children of a node over the children of a pattern with two growing vectors: suffix nodes that refer to their parent by index, and matchings that are computed once per suffix node and looked up by index. For every pattern and every tree the loop ends, no vector is read at an index that is not there, no suffix node is used before its matchings are computed, and the matchings that are returned are exactly those of the enumeration of all distributions, without loss or repetition and in the same order; under the conditions of C26 to C28 these are exactly the instances of the pattern whose constraints hold.", "quantifier": "all patterns, trees, constraints and constraint checkers; nodes with fewer than 2^62 children", "why_tests_cant": "The number of suffix nodes and the sharing between them depend on the pattern, the lengths of all parameter lists and on which lists are bound already; a wrong index shows only if a stale or foreign matching differs from the right one.", "anchors": ["src/engine/transformation/matching.c:match_parameter_lists", "src/engine/transformation/matching.c:fill_suffix", "src/engine/transformation/matching.c:extend_matching", "src/engine/transformation/matching.c:get_all_matchings"]}
{"id": "C100", "title": "The nodes of a trie in memory: no stray access, no leak, payload pointers that stay valid", "statement": "After trie_create, any sequence of trie_add_str (with a write through the returned pointer) and trie_remove_str only reads, writes and frees nodes of that trie that are allocated; everything else in memory stays as it was. Lookups find the payload of the map in allocated memory. trie_add_str returns NULL exactly for a string that is stored, and otherwise the address that lookups of the string return from then on; that address does not change until the string itself is removed, whatever other strings are added and removed. At any time every allocated node is the root or lies on the way to a stored string, and trie_destroy frees every node exactly once and leaves memory as it was before trie_create.", "quantifier": "all allocators, all previous contents of memory, all histories of insertions of storable strings and removals of arbitrary strings, all interleavings of two parts of a history around a pointer that is kept", "why_tests_cant": "Removal frees nodes on the way back up of the recursion, and the parent still writes to its own fields afterwards; whether some history makes it touch a freed node, free a node that a stored string still needs, or keep one that none needs depends on which prefixes are shared. The context keeps pointers into payloads over calls. A test sees one allocator and one history, and a stray write often goes unnoticed.", "anchors": ["src/util/trie.c:trie_create", "src/util/trie.c:trie_add_str", "src/util/trie.c:remove_rec", "src/util/trie.c:trie_remove_str", "src/util/trie.c:destroy_rec", "src/util/trie.c:trie_destroy", "src/util/trie.c:trie_contains", "src/util/trie.c:trie_longest_prefix"]}
{"id": "C101", "title": "Evaluating an input leaves no nodes behind, also after an error", "statement": "Evaluating an input (parse, apply the user's functions, simplify, print, free) only reads, writes and frees nodes that are allocated. When it is over, the nodes in memory are exactly those from before: those of the user's functions and of the simplification rules are untouched, and none of the tree is left. This holds when the input cannot be parsed, when simplification reports an error half way through (the tree is then freed as far as it was rewritten), and when it succeeds. The value added to the history is the one the same steps give on trees as values. The parts apply_ruleset, simplify and arith_simplify exchange the tree for the tree the rules lead to and change nothing else.", "quantifier": "all inputs, all sets of user functions and rules stored in memory, all allocators, all previous contents of memory, all arithmetics, for every context like that of the calculator, and for every run of the rules that ends", "why_tests_cant": "The tree is rewritten in place by an unbounded number of rule applications, each of which copies parts of it, copies the rule and frees the rest. A rule that duplicates a subtree, one that drops it, an error in the middle of a derivative and a substitution of the shorthand derivative all take other paths through ownership. A test sees one path and one allocator, and sharing of a node between a rule and the tree goes unnoticed until the next evaluation.", "anchors": ["src/client/commands/cmd_evaluation.c:cmd_evaluation_exec", "src/client/core/arith_context.c:arith_simplify", "src/client/core/arith_context.c:arith_parse", "src/client/simplification/simplification.c:simplify", "src/client/simplification/simplification.c:apply_derivatives", "src/client/simplification/simplification.c:replace_negative_consts", "src/engine/transformation/rewrite_rule.c:apply_rule", "src/engine/transformation/rewrite_rule.c:apply_ruleset_by_iterator"]}
{"id": "C102", "title": "The nodes a session holds are those of the rules of its functions", "statement": "In a session of evaluations, definitions and clears, entered in any order, only allocated nodes are read, written and freed. After every input the nodes in memory are those from before the session and those of the two sides of the rule of every function that is defined now; no node belongs to two rules. A definition that is refused (unreadable left or right side, not a function, arguments that are not distinct variables, recursion, an unbound variable) leaves the memory as it was; one that is accepted adds exactly the nodes of its rule, which were not in use before. 'clear f' frees the nodes of the rule of f and no others, and after 'clear' the memory is as it was before the session. Context and history are those of the same session on trees as values.", "quantifier": "all histories of inputs, all arithmetics, all allocators, all contents of memory before the session, all rules for simplification stored there", "why_tests_cant": "Ownership of the two trees of a definition moves between local variables, the parsing result, the pattern and the rule, and six exits free different parts of them. Whether anything is freed twice or never depends on the exit taken and on which functions were defined and cleared before, so no set of sessions covers it, and a leak or a shared node shows in no output.", "anchors": ["src/client/commands/cmd_definition.c:cmd_definition_exec", "src/client/commands/cmd_definition.c:add_function", "src/client/commands/cmd_definition.c:do_left_checks", "src/client/commands/cmd_clear.c:cmd_clear_exec", "src/client/core/arith_context.c:remove_composite_function", "src/client/core/arith_context.c:clear_composite_functions", "src/engine/transformation/rewrite_rule.c:get_rule", "src/engine/transformation/rewrite_rule.c:free_rule", "src/engine/transformation/matching.c:get_pattern"]}
{"id": "C103", "title": "Rules in memory, and nothing is left when the program ends", "statement": "parse_rule either returns a rule whose trees (left side, right side, constraints) consist of nodes that were not in use before, no two of them sharing a node, with no other new node in memory; or it returns false and the memory is as before, whichever of its exits is taken. free_rule gives exactly these nodes back. In a program that loads rule files, evaluates, defines and clears in any order, only allocated nodes are read, written and freed, after every input the nodes in memory are those from before the program, those of the rules that are loaded and those of the functions that are defined, and after unload_commands the memory is as it was before the program, as its comment says.", "quantifier": "all texts of rules, all histories of inputs and of rule files, all arithmetics, all allocators, all contents of memory before the program", "why_tests_cant": "The trees of a rule move from the parser through an array of constraints and a pattern into a vector, their variables being renumbered on the way; five exits of parse_rule and three of init_simplification free different parts. Whether something is freed twice, or is still reachable, depends on the files loaded before and on what was defined in between; a leak shows in no output, and no finite set of files and histories covers the cases.", "anchors": ["src/engine/transformation/rule_parsing.c:parse_rule", "src/engine/transformation/rule_parsing.c:parse_constraints", "src/engine/transformation/rule_parsing.c:parse_pattern", "src/engine/transformation/rule_parsing.c:parse_rulesets_from_file", "src/engine/transformation/matching.c:get_pattern", "src/engine/transformation/matching.c:free_pattern", "src/engine/transformation/rewrite_rule.c:free_rule", "src/engine/transformation/rewrite_rule.c:free_ruleset", "src/client/simplification/simplification.c:init_simplification", "src/client/simplification/simplification.c:unload_simplification", "src/client/commands/cmd_load.c:cmd_load_exec", "src/client/commands/commands.c:unload_commands"]}
{"id": "C104", "title": "The table command leaves no nodes behind", "statement": "In every run of the table command only allocated nodes are read, written and freed; it shows the rows and the fold result that are computed with trees as values, and when it returns, on success or through any of its error exits, the nodes in memory are exactly those from before the command: every copy of the expression and of the fold expression, every constant substituted for a variable, and every tree parsed from its arguments has been freed once. Hence a program of any history of load, table, definition, clear and evaluation leaves memory as it was before it.", "quantifier": "all inputs after table, all numbers of rows, all defined functions and loaded rules, all arithmetics, all allocators, all histories", "why_tests_cant": "Each row copies trees, substitutes copies of constants into them and frees the copies; substitution replaces nodes, possibly the root that is freed afterwards. How many trees exist at the label exit depends on which of ten checks failed. A leak or a double free shows in no output, and the rows, trees and functions are unbounded.", "anchors": ["src/client/commands/cmd_table.c:cmd_table_exec", "src/client/core/arith_context.c:arith_parse", "src/client/core/arith_evaluation.c:arith_evaluate", "src/engine/tree/tree_util.c:replace_variable_nodes", "src/engine/tree/tree_util.c:list_variables", "src/engine/tree/node.c:free_tree"]}
{"id": "C105", "title": "Tables own their rows and texts", "statement": "Whatever sequence of calls fills a table, its rows form a linked list of distinct allocated blocks whose contents are those of the abstract table, only allocated rows are read and written, printing leaves that so, and free_table frees the table, every row and every text the table owns exactly once. If the table is filled without set_position, as all clients do, memory is afterwards exactly what it was before get_empty_table; otherwise what remains are the owned texts of cells that were set again.", "quantifier": "all sequences of calls of the table module that do not fail, all texts, owned or not, all allocators, all memory contents", "why_tests_cant": "Rows are found by walking the list, set_span appends rows while other pointers into the list are kept, cells point to their parents in other rows, and free_row visits only num_cols columns. Whether every owned text lies in these and no row is visited twice depends on the whole history of calls; a leak shows in no output.", "anchors": ["src/table/table.c:free_table", "src/table/table.c:free_row", "src/table/table.c:append_row", "src/table/table.c:add_text_cell", "src/table/table.c:set_position", "src/table/table.c:next_row", "src/table/table.c:set_span", "src/table/table.c:override_superfluous_lines", "src/table/table.c:get_empty_table"]}
{"id": "C106", "title": "Only the names of functions outlive their input", "statement": "Every text the tokenizer allocates, and every token vector, is freed exactly once and not read afterwards, whichever way the parser, the evaluation or a definition ends; the only texts that stay are the names of the functions the user has defined, one for each function, at the place the operator in the context points to, until the function is cleared. After clear (and at the end of the program) memory is what it was at the start.", "quantifier": "all sequences of evaluations, definitions and clearings, all inputs, all allocators, all memory contents", "why_tests_cant": "Tokens of one input have up to five different owners (the token vector, the parsing result, add_function, the operator in the context, remove_node), free_result may be called twice, and a definition has nine exits. A name freed too early is still readable in most runs and shows only when a later input is looked up; a leak shows in no output.", "anchors": ["src/engine/parsing/tokenizer.c:tokenize", "src/engine/parsing/tokenizer.c:free_tokens", "src/engine/parsing/parser.c:parse_input", "src/engine/parsing/parser.c:parse_easy", "src/engine/parsing/parser.c:free_result", "src/client/core/arith_context.c:arith_parse_raw", "src/client/core/arith_context.c:arith_simplify", "src/client/core/arith_context.c:remove_node", "src/client/core/arith_context.c:clear_composite_functions", "src/client/commands/cmd_definition.c:add_function", "src/client/commands/cmd_definition.c:cmd_definition_exec", "src/client/commands/cmd_clear.c:cmd_clear_exec"]}
{"id": "C107", "title": "No tree that stays points to an operator that has been freed", "statement": "In every state the program reaches, each operator that a rule of a user's function (left or right side) or a helper pattern of the simplification points to is an operator of the context at that time: when clearing a function frees its operator, no tree that stays refers to it. The trees evaluation returns contain only built-in operators, so they outlive all functions. Operators on right sides have a number of operands they can have.", "quantifier": "all sequences of definitions and clearings, all inputs, all number systems, all simplifications that keep built-in operators", "why_tests_cant": "A tree with a stale operator pointer is read correctly as long as the freed memory is not reused; which trees are left with one depends on the whole history (functions using functions, definitions replaced, functions cleared in any order, operator numbers given twice after clearing), and nothing is checked when a function is cleared: it is safe only because calls were expanded completely when they were defined.", "anchors": ["src/client/core/arith_context.c:remove_node", "src/client/core/arith_context.c:clear_composite_functions", "src/client/core/arith_context.c:arith_simplify", "src/client/commands/cmd_definition.c:add_function", "src/client/commands/cmd_clear.c:cmd_clear_exec", "src/engine/parsing/context.c:ctx_delete_op", "src/client/simplification/simplification.c:init_simplification"]}
