# Design

Target: PhilippHochmann/Calculator (ccalc), C sources in `/repo`. The model is a
hand translation into Lean 4, function by function; every definition cites the
file and lines it follows.

## Conventions of the model

* **Strings** are `List Char` without the terminating NUL. A byte >= 128 (a
  negative `char`) is neither letter, digit nor legal trie character in C; the
  same holds for Lean characters >= 128.
* **Doubles** are an abstract type `V`. Everything done to doubles goes through
  parameters (`strtod`, `printf "%g"`, equality, the operator listener), so the
  engine theorems hold for every floating point behaviour, NaN included.
  The evaluation of operators is written over a structure `Arith V`; it is used
  with `Dbl` (finite rationals, infinities, NaN), whose rounding is a parameter:
  `Dbl.round` is IEEE binary64 round to nearest, `Dbl.fin` is exact arithmetic.
  They have one zero; Model/SignedZero has both, and C95 shows that this makes no
  difference but for the sign itself, `root` and `gamma`. Functions of libm are a parameter `Lib`.
* **Undefined behaviour** (NULL dereference, out-of-bounds, uninitialised
  result) is a distinct outcome `ub`, never silently totalised.
* **`software_defect`** (prints and exits) is a distinct outcome `defect`.
* **Trees** are values; sharing and freeing are not visible. Model/NodeHeap and
  Model/ParserHeap, Model/SimplifyHeap, Model/DefinitionHeap, Model/RuleHeap and Model/TableHeap have the nodes in memory, and C96-C98 and
  C101-C104 show that the functions that change trees, the application of rules, the parser, the evaluation
  of an input, definitions, rule files and tables do in memory what the model does with values. Not in memory: `tree_reduce_ops`, the search of a matching (it only reads),
  the vectors, and the strings of the client. Model/LayoutHeap has rows and texts of tables in memory (C105),
  Model/TextHeap the texts of tokens and the names of functions (C106).
* **malloc never fails** (`alloc_wrappers.c` exits when it does), `size_t` does
  not overflow unless stated (matching's underflow *is* modelled).
* Output is modelled for every command, as the texts on standard output and on standard error (C91).

## Trusted base

* Lean kernel; axioms at most `propext`, `Classical.choice`, `Quot.sound`
  (checked with `#print axioms` through `vcheck`).
* The hand translation C -> Lean (no extraction tool), to be read side by side.
* The C compiler and libc are not verified; `strtod`/`printf` enter as parameters
  with stated hypotheses, and as a model after the C standard, with correct
  rounding, in Model/Printf (C89, C90).

Modelled: util (trie, vector, string builder, linked list, string helpers),
engine (operator, context, tokenizer, parser, tree utilities, printer, matching,
transformation, rules, rule parsing), client (arithmetic context, evaluation
algorithms, history, definitions, clear, evaluation, table command, help, dispatch,
input processing, transcripts, error marks, command line, simplification), table layout.
Not modelled: readline and its prompt, the interleaving of standard output and standard error, random numbers,
memory allocation failure, libm functions beyond their real-number meaning.

## Per property

| id | modelled | proof plan |
|----|----------|-----------|
| C01-C03 | trie nodes with terminal flag, successor counter, children; payload | refinement to a finite map by induction on the string; invariant preserved by every operation; histories by induction on the operation list |
| C04 | vector with capacity and initialised-cell model | invariant count <= capacity, refinement to list |
| C05 | builder = byte buffer with cursor, `vsnprintf` by its C specification | refinement to concatenation |
| C06 | heap of nodes with next/previous pointers | representation predicate, refinement to list |
| C07, C08 | tokenizer state machine over a trie | loop invariant; spec is a separate predicate on token lists. Violated when a keyword starts with a digit: witness |
| C09 | error index of parser, column computation | invariant on current token plus C07 |
| C10-C13 | context with operator list, tries, keyword trie | invariants by induction on histories. C12 and C13 are **violated** by the code (ids are the list length; deleting one placement removes the shared keyword): witness + partial |
| C14-C16 | shunting-yard parser as a state machine, every stack access explicit | stack-count invariant. C14 **violated**: `((1,2))` dereferences NULL (parser.c:280): witness + exact partial; C15 **violated** for function glue operators and `1+sum(-)`: witness + partial |
| C17, C18 | printer on tokens and on characters | simulation: reading the printed tokens of `t` leaves the stacks so that popping yields `t`; char level through C07/C08; constants that printing rounds come back as their texts are read, and the text is then stable (the tree with rounded constants has the same text), while of two constants with one text at most one can come back |
| C57 | grammar with open edges (Spec/Grammar) | stack simulation in both directions; **violated** by `1+sum(-)`: witness + exact partial |
| C19, C20 | same parser | bisimulation up to token indices |
| C21-C25 | tree utilities | structural induction |
| C26-C28 | matcher with its suffix tree, constraints with their trigger ids | soundness/completeness against the declarative instance relation `Inst` (Spec/Matching) by induction on the pattern. C26 **violated** for constraints that name foreign variables or sit on a pattern without variables (never checked); C28 **violated** for repeated list variables (size_t underflow): witnesses + partials |
| C99 | the two vectors of `match_parameter_lists` with their indices, `fill_suffix` with its lookup (Model/SuffixTree) | the loop over the vector is first in first out, so it runs level by level; invariant on the matchings that are kept (`Memo`); refinement to the enumeration used for C26-C28, hence their statements hold for the vectors |
| C100 | `trie.c` on nodes at addresses: create, add, remove, destroy, contains, longest prefix (Model/TrieHeap) | ownership predicate `Own` (every branch has its own addresses); add and remove simulate the value model of C01-C03, and change nothing outside; `Grows`/`Shrinks` say that nodes keep their successors, from which stored payloads do not move |
| C29-C31 | transformation, rules, rulesets | against `Inst` and `Replaced`; C31 **violated** for cap 0 (never stops): witness + partial |
| C32-C37 | session state machine: context, composite rules, history (Model/Session); `simplify` is a parameter, later set to the one of Model/Simplify (`client`) | invariant `Sess` over all histories; weight function for the expansion; `Expanded` (Spec/Session). C34, C37 **violated** (`f=1/0` NULL dereference; number clash after `clear f`), C32 for list-named parameters: witnesses in Props/SessionRuns + partials |
| C38 | history + evaluation command | induction over histories |
| C39-C41 | loops over `Dbl`, with fuel | loop invariants for every rounding that is exact up to N; against Mathlib `Nat.gcd`, `Nat.lcm`, `Nat.choose`, `Nat.fib`, `Nat.factorial`. C39 **violated** for lcm(0,0), C40 for k > n, C41 for fib(93): witness + partial |
| C42 | same loops | results do not depend on the fuel; **violated** by gcd(1,10^17), (10^17)!, gcd(max(),1): the loop state is a fixed point; partial for numbers below 2^53 |
| C64, C65 | operators `^`, max, min, sum, prod, avg, var | case analysis, induction over the argument list; **violated** by (-2)^0, max(): witness + partial |
| C66 | the same evaluation over `realArith` (Mathlib reals) | against the relation `Denotes` (Spec/Functions), written from the help text; **violated** by rand(5,5): witness + partial |
| C43 | the table command from input text to rows (Model/Table) | iff with the specification `Tabulates` (Spec/Table: cut and trimmed pieces, parsed trees, `Means` at every position); over doubles rows are exact where sums are, the loop ends where the rounding error is below the step; **violated** by rounding: endless loop, missing end row |
| C44 | fold part of the command | left fold `LeftFold` over the column of successful rows; **violated** by errors inside the fold: witness + partial |
| C45, C54, C69-C74 | all of table.c but memory (Model/TableLayout): cells, calls that fill a table, dimensions, lines, printing to a list of lines; arrays are functions, every index out of bounds is `ub`, the loops that advance by a span hang on span 0 | invariants over all calls (`Inside`, `Geo`, `Texts`, `Counts`); every printed piece has a known number of columns (`Piece`), so that lines add up; C69 by comparing with the separate function `shown`, C72 with `grid` (all tables without spans: sizes, alignments, lines and the characters where they meet), C73 by an invariant that lists the filled cells in reading order, C74 on top of C72. C45, C54, C70, C71 **violated** by cut spans, lines beside spans, adjacent escape sequences, UTF-8: witnesses + partials |
| C46, C55 | string helpers | index invariants; leading newline and all-space string are **violations** |
| C47, C48 | dispatch, line reader (Model/Commands) | command of every input characterised; results of texts characterised for lines with newlines; **violated** by `load a=b`, `clearance`, missing final newline, NUL, quit in a loaded file: witnesses + partials |
| C67 | `load`, nested files (bound on the depth replaces infinite recursion) | final state equals that of the inlined text; statuses differ: witness |
| C68 | all commands together | every state is `Reachable` (Lemmas/Session), so C32-C38 hold for the whole program; history changes per command |
| C49, C50 | shipped file as text (Model/ShippedRules), read by the model of `parse_rulesets` with exact numbers; real semantics with partial functions and derivatives (Spec/RealValue) | a checker, run by the kernel, compares every rule read with a term; a theorem for each of the 135 terms (Lemmas/RuleProofs, RuleDerivs); lifted to `applyRule` anywhere in a tree and to rulesets; the four wrong rules get witnesses |
| C51 | generic evaluation | congruence + C29 |
| C52, C53 | rule text parser | witnesses for dropped constraints and ignored error code + partial |
| C56 | final simplification step | structural induction |
| C60 | the splicing loop, statement by statement with its index | induction over the loop; equal to `Inst` |
| C61 | propositional context, its evaluation by operator id, the three passes of the checker | against a meaning by operator *name* (Spec/Conditions); finite table checked by `decide` |
| C63 | `init_simplification` and the helper patterns in a session (Model/Simplification) | the helper texts are parsed alike in all contexts without functions `x`, `z` (Lemmas/SimpInit); **violated** after `x(a)=a`, `x=5`: witnesses (Props/SimplifyRuns) + partials |
| C75 | `simplify` with all phases (Model/Simplify); values are real numbers | `Move`: one application of a rule, folding, or replacement of negative constants; `simplify` makes moves only (`simplify_moves`), each keeps all values but those of listed rules (C49); **violated** (`-2*(x+y)`): witness over the rationals + partials |
| C76 | the same, with a bound on the rounds of each loop; `hang` if it is exceeded | **violated**: `(-2*3)'` runs through a cycle of six expressions, for every bound (a lemma makes the bound irrelevant): witness. Partial: rulesets 0, 1, 2, 4 and 5 end for every expression, after at most as many rounds as its weight (polynomial weights, one scale per ruleset, each rule makes expressions lighter); ruleset 6 (`x*(-y) -> -y*x`) ends unless two negated numbers are multiplied and evaluating constants fails after its first application (the number of places where it can be applied gets smaller; evaluating constants adds none and removes them all if it succeeds), and `@5+-2*-3` shows that both are needed; the whole of `simplify` ends, with an answer that does not depend on the bounds, or never ends and arrives at an expression with which ruleset 3, or in the said case ruleset 6, never ends |
| C77 | the same | without rules an exact characterisation for all evaluations; **violated** with rules (`0/0` becomes 0); over the reals no error appears out of nowhere but through listed rules |
| C78-C80 | the same | `Explicit`, `Ambiguous`, `WrongDeriv`, `Within`, `Evaluated` (Spec/Simplify); an invariant of trees (`Within`) kept by every phase (Lemmas/SimplifyInv, SimplifySafe) and by all shipped rules, checked by the kernel for each (Lemmas/ShippedFit, ShippedConds); C80 by showing that no access of any phase fails |
| C81 | the trie iterator with its two arrays (Model/TrieIter), a `defect` where it stops the program | `Precedes`: order of strings; a lemma for `find_terminal` from each position by induction on the trie, the path of the iterator as invariant (Lemmas/TrieIter) |
| C82 | `report_error_at`, `show_error_at_token`, messages (Model/Console) | `Underlines`: which columns of a line are marked; from C09 (column of a token) and a lemma that splitting and stripping only erase characters of the line; **violated** for messages ending with a newline: witness + partial |
| C83 | `arith_simplify` with its report (Model/Console: `simplifyReport`, `arithReport`) | `FromTokens`: nodes and their tokens, by the parser invariant of C16; that tokens of operators and constants are handed on through user functions and rules is the `Within` invariant of C79 |
| C84 | `main` with the trie of switches (Model/Main); state, `exec_command` and standard input are parameters | `names`, `Switches`, `Has`: what the arguments say, without the trie (C01 links them); exit status by C48; **violated**: `-c quit`, `-c "# x"`: witnesses + partial |
| C85 | `to_str` with colours (Model/Drawing) | both ways of printing related by one induction (`printTree_both`); escape sequences never meet (`printTree_apart`) |
| C86 | `print_tree_visually` | bits of `vert_lines` are the lines of the ancestors; **violated** from 34 levels on: always undefined; partial below |
| C87 | `help`, `help operators` | exact text of commands, of the lists of operators and of all tables of `help operators` in every reachable session (tables through C69_marked and C69_bytes); functions of the user through C69, C85; **violated**: lines wider than `TTY_WIDTH` |
| C88 | `table` with all its output (Model/TableOutput) | `tableCells`, `foldLine` (Spec/TableOutput) for the rows of C43, C44; text by C69_marked; names of variables are words (Lemmas/Words), so that cells are tidy lines |
| C89 | `%.10g`, `%.10f`, `strtod` (Model/Printf) over `Dbl` | `TenDigits`, `Rounds`, `Ordinary` (Spec/Printf); ten digits of numbers very near to a ten-digit number are its own (`sig10_near`), and doubles are near enough (`round_error`) |
| C90 | the evaluation command with its output | variables of results are words of the input that are no functions (Lemmas/Names), C89, C18; **violated**: `1e-05` |
| C91 | all commands, input processing, `load` and `main` with what they write to both streams (Model/Transcript); sequences of `Said` | `Talks`, `answer`, `Script` (Spec/Transcript): a script's output is the concatenation of answers; the output model refines the model without output (`exec_sound`), and conversely writing never fails (`C91_total`, through C82, C87, C88, C90); notices through the rule that was added or removed; concrete transcripts with binary64 numbers, `printf`, `strtod` and `simplify` as they are (Props/TranscriptRuns) |
| C92 | the same | `Verdict`: one case distinction per command; **violated** by `load` (`C92_load`): partial without it |
| C93 | `Model/Double.lean` (`round`, `arith`), `Model/Evaluation.lean`, `strtod` | against `Binary64` (Spec/Binary64.lean), which says what a double is and nothing about rounding: nearest, ties to even, overflow, monotone; closure of all 58 operators by `evalOp_closed` |
| C94 | `evalOp`, operators 34-45 | rounding by the integers next to a number; extrema by induction over the arguments; error of a sum by induction with the relative error of one addition (`add_error`: exact below the last bit); **violated** by `frac` and `avg`: partial |
| C95 | doubles with both zeros (Model/SignedZero), the same `evalOp` over them | the map that forgets the sign is a homomorphism but for quotients by -0 (`evalOp_hom`, Lemmas/EvalHom): all loops keep divisors from being -0; **violated** by `root`, `gamma`: witness + partial. Justifies the single zero of the other theorems |
| C96 | `Model/NodeHeap.lean`: nodes as allocations that point to each other, places of type `Node **`, an arbitrary `malloc` | ownership predicates `Holds`, `At`, `Becomes` (Spec/Ownership); induction on the tree with a frame condition for everything outside |
| C97 | the same, rules: `transform_by_matching`, `tree_replace_by_list`, `apply_rule` after the search | the nodes bound by the matching are untouched until the matched tree is freed (`Safe`, Lemmas/NodeHeapRules); places for all bound trees exist (C97_bound, C97_places) |
| C98 | `Model/ParserHeap.lean`: the parser with pointers on its stack | simulation of Model/Parser step by step (Lemmas/ParserHeap); an upper bound of the nodes left (Lemmas/ParserOwed) holds for every context and glue operator |
| C101 | `apply_rule`, `apply_ruleset`, `simplify` with its derivatives, `arith_simplify`, `cmd_evaluation_exec` on nodes in memory (Model/SimplifyHeap); `find_matching` is a parameter (`Finds`: it answers what it answers on the tree), patterns are values, `*errnode` is left out, and so are the copies of constraints that `find_matching` makes and frees again | simulation of Model/Simplify: `Live` says that the tree is in a variable and the rest of memory is as it was; every step preserves it, so freeing the tree at the end gives back the memory from before. Rules stored in the rest (`Stored`) therefore stay as they are |
| C102 | `cmd_definition_exec`, `add_function`, `do_left_checks`, `get_pattern` (without constraints), `get_rule`, `tree_copy_IDs`, `remove_composite_function`, `clear_composite_functions`, `free_rule`, `cmd_clear_exec` on nodes in memory (Model/DefinitionHeap), and sessions of evaluations, definitions and clears; names (strings) and the operators of the context are values, operators are compared by all fields | simulation of Model/Session, step by step: `Keeps` says that memory is what was there before the session plus the nodes of the rules, each in one rule only. A definition moves the left tree, then the right tree, into `Pair`; either both are freed or both become a rule. Induction over the inputs, with one recursion depth for the whole history. Sessions in which the model of Session is undefined (the right side has an error when it is simplified: NULL goes on to `get_rule`) are left out by the hypothesis |
| C103 | `parse_easy`, `parse_constraints`, `parse_pattern`, `parse_rule`, `parse_rulesets_from_file`, `get_pattern` with constraints, `free_pattern`, `free_rule`, `free_ruleset`, `init_simplification`, `unload_simplification`, `cmd_load_exec` (simplification) and `unload_commands` on nodes in memory (Model/RuleHeap); texts, vectors and arrays of pointers are values, messages are left out, an entry that `vec_push_empty` made for a rejected rule is not in the vector. Before every other input the rules are read from memory (`readSimp`), so that `simplify` uses what is there | `Owns` says that memory is what was there before plus some trees at some addresses, no node in two of them; it is closed under permutation, concatenation and freeing. Every function is simulated on it: parsing adds a tree, renumbering changes one, the error exits free all. Rules, rulesets and the four patterns are lists of such trees, `unload_simplification` frees just that list. The nodes of functions are moved to the other side of the partition when rules are exchanged. Files that are not well-formed are excluded in `C103_program_partial`; `C103_leak` says what remains of them |
| C104 | `cmd_table_exec` with `arith_parse` and `arith_evaluate` on nodes in memory (Model/TableHeap): parsing of the four or six arguments, the checks, the loop with its copies and substituted constants, the fold, and the label `exit` with whatever variables are assigned by then. The table that is printed and texts are left out, the arithmetic is the same for all rows | On `Owns` of C103: a row adds a copy and a constant, substitution exchanges the copy's tree for the substituted one, the two calls of `free_tree` take both away again; the loop is an induction on its rounds; every exit frees just the list of trees that has been built up. What is shown and the history are those of Model/Table, whose results are the subject of C43, C44. `Entry` adds the command to the program of C103 |
| C105 | All functions that fill, print and free a table (src/table/table.c) on memory (Model/LayoutHeap): rows are a linked list of blocks found by walking, a cell points to its parent by the address of its row, a text made by `add_cell_fmt` or given to `add_cell_gc` is a block that belongs to its cell. Left out: the arrays `fprint_table` allocates and frees itself, and the contents of texts (values, as before) | Refinement of Model/TableLayout: `TableIn` says that the list of row addresses is without repetition, that row and cell contents are those of the table with parents translated into addresses, and that rows, texts and the rest of the memory are apart. Every call keeps it up (induction on the rounds of the loops of `set_position`, `set_span`, `override_superfluous_lines`); `free_row` goes over `num_cols` columns, which is enough because set cells are inside (`Inside` of C45). A text that is replaced is put on the list `lost`. `C105_partial` is for tables filled without `set_position`: there the current cell is never set (Lemmas/LayoutOrder). `C105_leak`: otherwise a text may be lost |
| C106 | `tokenize`, `free_tokens`, `parse_input`, `parse_easy`, `free_result`, `arith_parse_raw`, `arith_simplify`, `remove_node`, `clear_composite_functions` and the commands that evaluate, define and clear (Model/TextHeap), on a memory of texts and token vectors; the context is a value, beside it a list says where the name of each operator of the user is. Reading or freeing what is not allocated is undefined. Left out: a vector that grows keeps its address; showing an error reads all tokens | Simulation: outcomes of the model in memory are those of Model/Session (`OutRel`), with `Has base L g` (memory is `base` and the blocks `L`) threaded through every exit; operators, their names and the list of names are views of one list of entries, kept by `ctx_add_op` and `ctx_delete_op` (from the invariant of C32 - C37). `C106_session`; read off for the program in `C106_program`, `C106_clear`; `C106_parse`, `C106_again` for single parses |
| C107 | `Model/Session.lean` (definitions, clearing, evaluation) and `Model/Simplification.lean` (`init_simplification`); an operator has an address as long as the context holds it, a tree holds the operator itself | `Valid c t` (Spec/OperatorMemory): every operator in the tree is in the context. Right sides contain built-in operators only: `arith_simplify` applies the rules of the functions until none matches, a call of a known function always matches its rule, also where two operators have one number and where parameters are lists (`match_any`: one of the ways to distribute the arguments gives one to each), so no call is left (`expand_any`). This is stronger than C32, which needs distinct numbers and no brackets. The number of operands is right only without brackets (`C107_operands_partial`, **violated** otherwise); helper patterns **violated** if a function `x` or `z` existed when rules were loaded (`C107_dangling`) |
| C41, C65, C69, C71 | `longMax`, `Dbl.lt`, `output`, `padLeft`, `getHAlign`, `getVAlign` (Props/Primitives) | facts on single definitions that seeded mistakes in them showed to be missing: order of numbers, 64 bits, newlines, negative widths, alignment under a span |
| C62 | the loop of `apply_simplification` with fuel | induction; C31, C51, C25, C56 |

## Disagreements between code and properties found so far

1. parser.c:280 reads `->op->placement` of a parenthesis entry (`op == NULL`):
   `((1,2))`, `sum((1,2))` crash.
2. parser.c: `1+sum(-)` is accepted: operators pending inside a parameter list
   are reduced although no operand was read, consuming outer operands.
3. parser.c:62-95 returns without error code when operands are missing; reachable
   with a function as glue operator.
4. context.c: `op.id = list_count` is not unique after deletions; since trees are
   compared by id, calls of one user function may be evaluated with another's
   definition after `clear f`.
5. context.c: deleting an operator removes its keyword although another
   placement still uses the name.
6. cmd_definition.c: wrong NULL check (`left_tree` instead of `right_tree`) makes
   `f = 1/0` dereference NULL.
7. arith_evaluation.c: `n C k` is 1 for k > n.
8. arith_evaluation.c: `(10^17)!` never terminates with doubles.
9. matching.c: size_t underflow with repeated list variables.
10. tokenizer.c: characters are lost if a keyword starts with a digit.
11. console_util.c / rule_parsing.c: last character of a text without final
    newline is dropped.
12. string_util.c: `get_line_of_string` misses a leading newline, `strip` runs
    below the buffer on an all-space string.
13. table.c: width of spanning cells counts the wrong border column.
14. rule_parsing.c: constraints beyond the third are dropped silently.
15. cmd_load.c: malformed rule file is reported as loaded.
16. simplification.ruleset: rules that do not preserve values.
17. tree_to_string.c: postfix operator sharing its precedence with a
    right-associative infix operator is printed ambiguously.

18. tree_to_string.c: `1e+20`, the text of a large constant, is read back as
    `1*e+20`.
    Likewise `1e-05`, the result of `1/100000`, which is e-5 when entered again (C90).
19. tree_to_string.c:26: the name of a prefix operator is used as format string.
20. matching.c: a constraint is evaluated when the last of its variables gets
    bound; constraints on a pattern without variables are never evaluated, a
    variable that does not occur in the pattern is ignored.
21. rewrite_rule.c: `apply_ruleset` with cap 0 is not limited at all.
22. cmd_definition.c: parameters in brackets become list variables: with
    `f([x],[y])=[y]+1`, `f(1,2)` is `1+2+1` as one sum; with `f([x],[y])=[y]` the
    program aborts; with `f([x],[y])=[x]+1`, `f(1,2)` becomes a sum with one operand (C107).
23. cmd_definition.c: after `clear f` a new function that uses another one may be
    rejected as recursive (same cause as 4).
24. cmd_clear.c: the character after `clear` is ignored (`clearxf` clears `f`); a
    blank after the name makes it unknown.

25. arith_evaluation.c: `lcm(0,0)` divides by 0, `fib(93)` overflows a long,
    `(-2)^0`, `(-2)^(-1)` are refused as not real, `0^0` as division by zero.
26. arith_evaluation.c: `gcd(1,10^17)` and `gcd(max(),1)` never end; `max()`
    without arguments is an infinity, `var()` is 0/0.
27. arith_evaluation.c: `@` converts its operand to int without a check of the range.
28. arith_evaluation.c: `rand(5,5)` yields a number outside its range.
29. rule_parsing.c: `WHERE` left of the arrow is accepted; text after a ruleset
    header is dropped; more headers than rulesets write out of bounds.
30. cmd_definition.c: `f(x)=x+ans` and `f(x)=x+rand(0,9)` freeze the value at the
    time of the definition (constant folding of the body).
31. simplification.c: `x'` and `deriv(x, z)` are read in the user's context when
    rules are loaded: after `x(a)=a` the pattern is a null pointer, after `x=5`
    the shorthand is no longer recognised (C63).
32. cmd_table.c: with doubles the row of the end may be missing (`0;0.3;0.1`), and the loop
    does not end if the step is too small to change the position (2^53 + 1).
33. cmd_table.c: an error of the fold expression sets the accumulator to 0 without a message.
34. commands.c: `load a=b` is a definition, `clearance` a clear command.
35. console_util.c: a NUL at the start of a line makes the reader write in front of its buffer.
36. cmd_load.c: failures in a loaded file are ignored; `quit` in it ends the program with
    the status of that file alone.
37. simplification.ruleset: `(x^y)^z -> x^(y*z)` is wrong for x = -1, y = 2, z = 1/2;
    `-(x+y) -> x-y` (the rules 3/29 and 5/6, counted from 0) changes the value of nearly
    every sum; rule 3/37 drops all other factors of a product.  `avg() -> 0/0` though the
    program evaluates `avg()` to 0; `log(x, e) -> ln(x)` can never be applied, for `e`
    has been replaced by a number before.  14 more rules lose definedness: `x/y -> x*y^(-1)`
    keeps it over the reals, but the program refuses a negative base with an exponent
    below 1.
38. tree_util.c: `tree_equals` compares the ids of variables, so that `deriv(x,x)` would be
    taken for the derivative of another variable if ids differed; the parser sets all to 0.
39. table.c: a span that meets a set cell is cut to the offset of that cell, which may be 0
    rows (text lost) or 0 columns (`fprint_table` does not end); the cells it took before
    still point to it, and its text is printed twice.
40. table.c: `get_total_width` reads the line right of the columns of a span, not those between
    them: rows of different widths, and beyond the array if the span ends at the last column.
41. table.c: superfluous lines are removed after the widths have been computed.
42. table.c / string_util.c: `console_strlen` skips one escape sequence at a time, so that the
    second of two adjacent ones is counted (`OP_COLOR` is such a pair); bytes of UTF-8 are
    counted as columns.
43. table.c: `set_span` removes lines of the cells it takes without counting them down.
44. table.c: a text that starts with a newline makes `get_text_width` read an uninitialised
    pointer; a twelfth cell in a row is written out of bounds.
45. table.c: where a line ends without meeting another (one arm only), a blank is printed.
46. simplification.ruleset: `-2*(x+y)` is simplified to `2*x-2*y`, `-1*(2+x)` to `2-x` (through
    rule 5/6); `sqrt(x*x)` to `x` (through 3/29).
47. simplification.c: simplification does not end for `(-2*3)'`, `-2*3/0`, `0^(-2*3)`, `1/0+(-2*3)`,
    `ans*2*(-3)`, `(0^(2-3))^2`: a product with an operand that cannot be evaluated is not
    folded, and two rules move the sign back and forth.
48. simplification.c: `0/0`, `@5*0`, `0*(1/0)` are simplified to 0, `0^0` to 1, `ans-ans` to 0 before
    they are evaluated; without rules all but the last are errors.
49. simplification.c: `pi'` is refused (a derivative is left) though `(2*pi)'` is 0.
50. cmd_definition.c: with rules loaded, `f(x,y)=(x*y)'` crashes like `f=1/0` (see C34).
51. simplification.c: after `z=5` every shorthand without variables (`1'`) is reported as malformed;
    after `z(a)=a` simplification dereferences a null pointer.
52. cmd_table.c:87,111,131: the messages end with a newline; if they are put left of the marks, the
    marks are in the next line: `table x+1+2+3+4+5+6+7 ; 1 ; 2 ; 0` (with blanks around each `+`).
53. main.c:114: README.md says that arguments after `-c` are executed as if typed in, but `quit` is
    evaluated as a variable, and comments and blank arguments are errors that end the program.
54. tree_to_string.c:201-204,214: `print_tree_visually` shifts by the number of the layer; 34 levels are
    undefined behaviour.
55. cmd_help.c:128-194: a list of operators is continued on the next line only behind the operator that does
    not fit; a line of `help` has 87 columns with `TTY_WIDTH` 80. The table of constants contains a degree sign
    (two bytes, one column), so its row is one column short of the others. `NUM_COMMANDS` is 9 with 7 rows;
    the two rows that are left are null pointers and do not show.
56. cmd_load.c: `load f` succeeds although a command of the file failed; then standard error is not empty but the
    exit status is success (C92, see 36). Malformed rules are announced as "Successfully loaded simplification
    (-2 rules)" (see 15).
57. cmd_definition.c:56: `%zu` is given the `int` 10; undefined by the standard (the model prints 10).
58. commands.c:80: the notice "No simplification loaded" is whispered before `set_interactive`, so it is never seen.
59. arith_evaluation.c:301: `frac(x)` of a negative number of size at most 2^-54 is 1, not below 1 (C94).
60. arith_evaluation.c:320-331: `avg` overflows although the mean would not (`avg(2^1023, 2^1023)` is infinite), and may be
    below its least argument (ten times 0.1) (C94).
61. arith_evaluation.c:198, 345: `root(2,-0)` is 0 and `root(2,0)` infinite; `gamma(-0)` and `gamma(0)` are different
    infinities. Results that are -0 are shown as `-0`, for example that of `0*(-1)` (C95).
62. simplification.c:84-92: if the rule file is malformed or has too few rulesets, the rules read so far are never freed
    (nor is the file closed), and once more whenever it is loaded again; commands.c:52-55 says the heap is empty at the end (C103).
63. rule_parsing.c:113-115: `parse_pattern` does not free constraints and pattern when it fails; `parse_rule` does (C103).
64. table.c:455-460: `add_text_cell` on a cell that is set already (after `set_position`) overwrites `text` without freeing it,
    although the table may own it; it is never freed (C105). No client of the table module does this.
65. simplification.c:96-97: `P("x'")` and `P("deriv(x, z)")` are parsed with the functions of the user. After `x=5`,
    `load simplification` and `clear x` both helper patterns point to the freed operator of `x`; entering any derivative
    reads it (C107).

This file is extended as the model grows.
