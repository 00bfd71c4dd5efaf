# Formal model of Hypertag: design

Source: `/repo` (mwojnars/hypertag, pinned commit), read as text, never run. Proof system: Lean 4.33.0 with a few
single Mathlib modules. All Lean sources are under `lean/Verif/`; `lean/Verif.lean` imports every module.

1. Layout of the project
2. Modelling decisions
3. The model, layer by layer: what is modelled, from which lines, with which simplifications
4. The properties: how each one is stated and proved
5. Trusted base
6. What is not modelled
7. Defects of the code found on the way
8. Mutation testing

## 1. Layout of the project

| directory       | contents |
|-----------------|----------|
| `Verif/Model/`  | transcription of the Python code, function by function; each definition cites file and lines, and says what it simplifies |
| `Verif/Spec/`   | small independent specifications: decoders, tokenizers, written forms of scripts, binding rules of Python, "latest binding", policies |
| `Verif/Lemmas/` | proofs about the model and the specifications |
| `Verif/Props/`  | the theorems `Cnn_...`, one or a few per property of `properties.jsonl`, with `example`s that meet the hypotheses in a concrete, non-trivial case |

A property that is false of the code has a theorem `Cnn_not_in_general` (a concrete counterexample, proved) and theorems
`Cnn_..._partial` for the part that holds; the full statement stays in `properties.jsonl`.

## 2. Modelling decisions

* **Strings.** A Python `str` is `Str := List Char`. `Char` is a Unicode scalar value, so lone surrogates are not representable.
  `str.isspace` and the regex class `\s` are one predicate on code points (the whitespace list of CPython). Other Unicode
  classes (`\w`, `\d` beyond ASCII, the name characters of `xml_chars.py`) are a parameter `Uni`, with no assumption
  except that the four mark characters are in none of them (`MarksApart`, true for the default marks).
* **Exceptions** are values. Exceptions that the code raises itself are constructors of an enumeration (`Exn`: assertion, index, key,
  type, value, unbound name, ...), exceptions of user code are of an arbitrary type `X` and are either ordinary or not
  (`Exception` against `BaseException`), which is what `try` blocks and the `?` qualifier distinguish. An internal `assert` is a separate
  exception, so that "the assertion never fails" can be stated.
* **User code** (values of expressions, callables, iterables, tags, filters) is opaque. The type of external objects `P`, of exceptions `X`
  and of the external world `W` are parameters, and `PyOps` has one field per Python operation the code performs on values (`+`, call, truth
  value, iteration, `str`, subscription, ...). An operation is a terminating process (`Proc`): it may change the world, read and write DOM nodes,
  create nodes, call hypertags back through the functions it was given, and end with a value or an exception. So every statement on expressions
  and blocks holds for all behaviour of user code, including re-entrant callbacks; user code does not touch `State` objects in other ways.
* **Non-termination.** Loops and recursion that depend on user code (`while`, recursive hypertags, callbacks) have fuel. Running out of fuel is a
  separate outcome, `timeout`, never confused with success or an exception. Theorems hold for every amount of fuel.
* **Identity.** DOM nodes are objects on a heap (`Ref`), shared and mutable, as in Python. `Slot`, `State` and hypertag definitions are identified by
  numbers. A `DOM` value of the translator is a snapshot of its list of nodes (the code does not mutate `DOM` lists during translation).
* **Dicts** are insertion-ordered association lists with unique keys (`Dict`).
* **One analysis per tree.** `analyse` returns the tree with its slots filled in instead of writing to the nodes.

## 3. The model, layer by layer

**A. Text utilities.** `Model/PyStr`, `Text` (dom.py 27-62), `Html` (std/html.py 14-18, 30-95; tag.py 60-137; `quoteattr` of CPython), `Escapes` (ast.py 34-51),
`Preprocess` (ast.py 148-275), `Builtins` (std/builtins.py; `unique` of nifty/util.py), `Nifty` (other parts of nifty/util.py), `Paths` (runtime.py 21-49), error location (ast.py 1984-2009).
Regular expressions are replaced by scanners, described in the comments. `get_parser`'s search for free code points is on numbers; marks exist as long as four
code points are free.

**B. Tables and loaders.** `Model/MultiDict` (structs.py 20-187), `Loader` (runtime.py 126-364): caches, `PyLoader`, `HyLoader`, import order, built-in symbols. The file system and
`importlib` are opaque and may raise.

**C. DOM.** `Model/Dom` (rendering, dom.py 70-450), `DomTree` (construction, walk, select, alter, tree drawing), `DomHeap` (`copy`, `skip` on a heap with sharing and
cycles), `NodeOps` (the operations the translator uses, on the heap of the machine).

**D. Evaluation.** `Model/Machine` (values, exceptions, nodes, states), `Expr` (ast.py 1266-1768), `Script` (statement trees, ast.py 354-1264), `Translate` (ast.py 120-140, 354-1206, 2035-2063: all node
classes), `Analyse` (name analysis, ast.py and structs.py 189-220, 395-460). Simplifications: branches that return `None` count as an empty `DOM`; imported modules come from an oracle
(which may be instantiated by C29/C64); the symbol table is a list of bindings, which is justified by C32, C33 and `C69_context` (refinement by the model of `MultiDict`).

**E. Parsing.** `Model/Peg` (the matching algorithm of parsimonious 0.8.1 and of the regular expressions of the grammar), `Grammar` (grammar.py, rule by rule), `Parse`, `Rewrite` (nifty/parsing.py 316-342 with
the configuration of ast.py 1912-1936), `Setup` (the `setup` methods of all node classes). `loadScript` is the composition: preprocess, parse, rewrite, setup. The packrat cache of
parsimonious and the recursion limit of Python are left out. A tree with unexpected children would make `setup` fail with `malformed`; C83 proves that this never happens.

## 4. The properties

* **C01** Plain-text escaping leaves no active markup (proved). `html_escape` as three `replace`s, shown equal to a one-pass map; `Spec.SafeText`: no angle brackets, ampersands only in entities. Induction on the text. html_escape as three str.replace calls; all strings.
  Theorems: `C01_escape_safe`.
* **C02** Plain-text escaping is lossless (proved). Decoder of entities in `Spec/Html`; induction on the text.
  Theorems: `C02_escape_roundtrip`, `C02_escape_injective`.
* **C03** Attribute values cannot break out of their quotes (proved). `quoteattr` as its sequence of `replace`s and choice of quotes; the value contains no closing quote and no `<`.
  Theorems: `C03_attr_quoting_safe`.
* **C04** Attribute values round-trip through markup (proved). Decoder of attribute values in `Spec/Html`; induction.
  Theorems: `C04_attr_roundtrip`, `C04_attr_injective`.
* **C05** A start tag parses back to the given name and attributes (proved). Start-tag tokenizer of `Spec/Html` (a state machine by character) run on the rendered start tag; induction on the list of attributes. Quantified over attribute lists with valid names; attribute values already converted by str().
  Theorems: `C05_start_tag_parses_back`, `C05_void_tag_parses_back`.
* **C06** Rendered markup has exactly the structure of the DOM (proved). Document tokenizer of `Spec/Html` against the depth-first traversal `Spec/DomEvents`; induction on the tree; key lemma: indentation only adds whitespace between tags and in texts. Tokenizer of the specification run on rendered output; DOM trees whose tags are markup tags, texts escaped.
  Theorems: `C06_structure`, `C06_structure_root`, `C06_renders`.
* **C07** Void elements never carry a body (proved). Case analysis on the tag, for any body.
  Theorems: `C07_void`, `C07_positional`, `C07_no_document`.
* **C08** Indenting a text shifts exactly its non-empty lines after the first (proved). `add_indent` as a scan; specification by `split` into lines.
  Theorems: `C08_addIndent_lines`, `C08_line_count`.
* **C09** Nested indentation accumulates (proved). Composition law of `add_indent`; `C09_rendered` by induction on the path to the node. C09_rendered: in a whole rendered tree (any depth, tags that keep their body, indentations free of newlines), the text of each node occurs indented by the concatenation of the indentations around it.
  Theorems: `C09_addIndent_comp`, `C09_nested`, `C09_rendered`.
* **C10** Detected indentation is the longest common one (proved). Column scan against "longest common whitespace prefix of the non-blank lines".
  Theorems: `C10_getIndent_longest`, `C10_getIndent_blank`, `C10_getIndent_unique`.
* **C11** Removing common indentation keeps the lines and is idempotent (proved). From C10, line by line.
  Theorems: `C11_delIndent_lines`, `C11_getIndent_delIndent`, `C11_delIndent_idempotent`.
* **C12** Indent then dedent gives the text back (proved). From C08 and C11.
  Theorems: `C12_indent_dedent`.
* **C13** Indentation encoding never fails internally (proved). `preprocess` as a fold over lines with the same four variables; the invariant of the fold excludes the assertion.
  Theorems: `C13_no_internal_failure`.
* **C14** INDENT/DEDENT marks are well nested and typed (proved). Invariant: the stack of open marks is the current indentation; typed nesting in `Spec/Preprocess`.
  Theorems: `C14_balanced`.
* **C15** Indentation encoding is lossless (proved). Decoder of the marked text in `Spec/Preprocess`; the decoder inverts the fold.
  Theorems: `C15_lossless`, `C15_injective`.
* **C16** Line numbers survive indentation encoding (proved). Number of newlines is kept by each step.
  Theorems: `C16_line_numbers`.
* **C17** IndentationError exactly for incompatible indentation (proved). Specification: each line is compatible with the previous non-blank one; both directions.
  Theorems: `C17_error_iff`, `C17_ok_iff`, `C17_prefix`.
* **C18** Mark characters never collide with the script (proved). Search on code points; the marks are distinct and not in the script. marks exist iff four free code points exist; search modelled on code points.
  Theorems: `C18_marks_fresh`, `C18_marks_exist`, `C18_usable`.
* **C19** Syntax-error location is exact (proved). Binary search with a well-founded measure; invariant good < bad. Assumes that failure is monotone in the length of the text, which is the assumption of the code.
  Theorems: `C19_locate_error`.
* **C20** Escape sequences in strings (proved). Decoder as a scanner; specification from the Python reference (`Spec/Escapes`). Unicode names are an arbitrary lookup; surrogates are not representable.
  Theorems: `C20_no_backslash`, `C20_decode_escaped`, `C20_escaped_exists`, `C20_other_backslash`, `C20_incomplete`, `C20_invalid`.
* **C21** merge normalises whitespace (proved). `merge` against the maximal runs of non-whitespace (`Spec.Words`).
  Theorems: `C21_merge_words`, `C21_merge_idempotent`.
* **C22** unique keeps first occurrences (proved). First occurrences: same elements, no repetition, order of first positions.
  Theorems: `C22_unique`, `C22_lines`, `C22_spec_unique`.
* **C23** dedent removes all line indentation and nothing else (proved). Line by line.
  Theorems: `C23_dedent`.
* **C24** inline removes newlines reversibly (proved). Inverse function on texts.
  Theorems: `C24_no_newline`, `C24_restore`, `C24_indent_invariant`.
* **C25** cycle repeats sequences in parallel (proved). Elementwise. The proviso is needed: C25_empty_sequence_witness.
  Theorems: `C25_cycle`, `C25_no_sequences`, `C25_empty_sequence_witness`.
* **C26** changes flags exactly the changes (proved). Elementwise.
  Theorems: `C26_changes`.
* **C27** crop respects the length limit (proved). Length and prefix.
  Theorems: `C27_crop`, `C27_preconditions`.
* **C28** Relative import paths are resolved component-wise (proved). Specification on lists of components.
  Theorems: `C28_join_path`, `C28_components`, `C28_other_cases`.
* **C29** A loader reads each module at most once (proved). State machine of the cache; induction on histories of requests.
  Theorems: `C29_read_once`, `C29_same_module`.
* **C30** Import uses the first loader that finds the module (proved). Search in the list of loaders.
  Theorems: `C30_first_loader`, `C30_not_found`, `C30_exception`.
* **C31** Built-in symbols are isolated from scripts (proved). Histories of translations of scripts; the proviso on failed imports is needed (`C31_failed_import_witness`).
  Theorems: `C31_isolated`, `C31_override`, `C31_failed_import_witness`.
* **C32** Symbol table behaves as a stack of scopes (proved). Refinement of the pair `lookup`/`stack` to a list of bindings; invariant: index of lookup = last position.
  Theorems: `C32_get`, `C32_contains`, `C32_results`, `C32_keys`.
* **C33** Leaving a scope restores the symbol table exactly (proved). Same refinement.
  Theorems: `C33_reset_restores`.
* **C34** DOM construction flattens (proved). Nested iterables as a rose tree; leaves as an inductive relation. Leaves are an inductive relation; existence and uniqueness are proved. Generators are read as sequences without side effects.
  Theorems: `C34_flatten`, `C34_leaves_unique`.
* **C35** walk visits every node exactly once in the documented order (proved). Nodes are addressed by paths; visited paths = all visible paths in document order. Nodes are addressed by paths; the visited paths are exactly the visible ones, sorted by document order, hence without repetition.
  Theorems: `C35_walk`, `C35_once`, `C35_order`, `C35_all`.
* **C36** select returns exactly the matching nodes (partial). Exactly the paths whose nodes match; `TypeError` characterised exactly. False in general (C36_not_in_general): select by attribute raises TypeError as soon as a node that passes the tag test has no attribute dict, e.g. any text node (C36_select_error). Proved exactly for DOMs without such nodes.
  Theorems: `C36_select_partial`, `C36_select_error`, `C36_not_in_general`.
* **C37** skip removes exactly the matching subtrees (partial). On a heap with sharing: the result represents the tree without matching subtrees. False in general for the same reason as C36 (C37_not_in_general, C37_skip_error). Otherwise proved on a heap with arbitrary sharing, including termination.
  Theorems: `C37_skip_partial`, `C37_skip_error`, `C37_remaining`, `C37_not_in_general`.
* **C38** skip leaves the original untouched (proved). Frame property of `copy`/`skip`: no object that existed before is changed. For arbitrary heaps, including cyclic ones (where skip does not return normally).
  Theorems: `C38_original_untouched`.
* **C39** Slicing a DOM (partial). Negation, and what the result is. False for every DOM and slice (C39_slice_not_in_general): the result contains one list instead of the nodes. The partial theorem: flattening the result again gives the right DOM.
  Theorems: `C39_slice_not_in_general`, `C39_slice_partial`, `C39_selected`.
* **C40** alter applies the transform in the documented order (partial). What each order does; the documented order for transforms that only drop. False (C40_not_in_general): the two orders are interchanged. Proved: what each order really does, and that the documented behaviour holds for transforms that only drop nodes.
  Theorems: `C40_alter_swapped_partial`, `C40_drop_partial`, `C40_not_in_general`.
* **C41** tree() draws one line per node at its depth (proved). One line per node at its depth; induction. Headings are arbitrary; with newline-free headings the number of lines is the number of nodes.
  Theorems: `C41_tree`, `C41_line_count`, `C41_heading`.
* **C42** Only one leading newline is dropped from a document (proved). Case analysis.
  Theorems: `C42_one_newline_dropped`.
* **C43** Logical operators are lazy and return operands (proved). Runs of operands as relations on computations (`Spec/Eval`): the first deciding operand is the value, later ones are not run. The code tests the truth of an intermediate value twice; for values whose truth test is unstable the claim fails (C43_double_test_witness).
  Theorems: `C43_and`, `C43_or`, `C43_later_operands_not_evaluated`, `C43_double_test_witness`.
* **C44** Conditional expression evaluates one branch (proved). Same.
  Theorems: `C44_true`, `C44_false`, `C44_test_fails`.
* **C45** Optional qualifier suppresses failures (proved). Same. The truth test of X is made outside of the try statement: an exception of bool(X) itself escapes (C45_truth_test_escapes).
  Theorems: `C45_optional`, `C45_no_exception`, `C45_truth_test_escapes`.
* **C46** Obligatory qualifier rejects false values (proved). Same.
  Theorems: `C46_obligatory`, `C46_result_true`, `C46_false_value_only`.
* **C47** Pipeline is function application (proved). Same.
  Theorems: `C47_filter`, `C47_no_filter`, `C47_as_call`.
* **C48** Operator chains associate to the left (proved). Left fold over operands, in order, first failure.
  Theorems: `C48_chain`, `C48_minus`, `C48_bits`, `C48_parentheses`, `C48_first_failure`.
* **C49** Unpacking assignment (proved). `Spec/Unpack`: destructuring on the level of values; simulation of the iterator protocol.
  Theorems: `C49_assign`, `C49_success_iff`, `C49_flat`.
* **C50** if executes exactly the first true branch (partial). `Spec/Control`: runs of control blocks in terms of arbitrary computations for their parts. False in general (C50_not_in_general): an else clause with an empty body raises AssertionError. Partial theorem: proved for all blocks whose else clause has a body.
  Theorems: `C50_first_true`, `C50_none_true_partial`, `C50_test_fails`, `C50_not_in_general`.
* **C51** for concatenates one body per element (partial). Same; induction on the run of the iterator. False in general (C51_not_in_general): a for block with an else clause but no body repeats the clause for each element. Proved for blocks with a body or without an else clause.
  Theorems: `C51_for_partial`, `C51_for_else`, `C51_elements`, `C51_last_value`, `C51_not_in_general`.
* **C52** while repeats until the test fails (proved). Same; induction on the number of rounds.
  Theorems: `C52_while`, `C52_while_else`, `C52_test_false`.
* **C53** try never propagates ordinary exceptions (partial). Same. The branches never propagate ordinary exceptions, but the closing set_indent of the block may raise AssertionError (C53_not_in_general); partial theorem excludes that.
  Theorems: `C53_first_success`, `C53_all_fail`, `C53_base_exception`, `C53_no_exception_partial`, `C53_not_in_general`.
* **C54** Indentation is restored after every block (proved). A frame theorem for the translator (`Lemmas/TransFrame`): a property closed under the primitive steps holds for the translation of any tree; instantiated with "indentation is the same", by induction on fuel for hypertags.
  Theorems: `C54_block`, `C54_hypertag`, `C54_next_branch`.
* **C55** Tagged blocks do not leak variables (proved). Judgement on contexts (names, slots) by induction on the analysis (`Lemmas/Judge`, `Part`), combined with the frame theorem for slots. Lexical part (names, slots) for every tagged block; values for every block outside of hypertag definitions (C55_document), and inside under the hypothesis that the hypertags called do not write visible slots (re-entrant hypertags share their slots).
  Theorems: `C55_names`, `C55_values`, `C55_document`.
* **C56** Undefined names are detected before translation (partial). `Spec/Scope`: scoping stated on the parsed script, without slots; equivalence with success of the analysis. False in general (C56_not_in_general): the else clause of a for block is not analysed. Proved for all scripts without such clauses.
  Theorems: `C56_rejected_partial`, `C56_only_undefined_partial`, `C56_accepted_partial`, `C56_before_assignment`, `C56_not_in_general`.
* **C57** Hypertag attributes bind like Python call arguments (proved). `Spec/CallBinding`: the binding algorithm of the Python reference 6.3.4. Specification: the binding algorithm of the Python language reference (6.3.4) for a function without * parameters. Defaults are evaluated at expansion, in the expanding state (unlike Python, which evaluates them at definition).
  Theorems: `C57_definitions`, `C57_type_error`, `C57_bound`, `C57_void`.
* **C58** Repeated attributes are joined with spaces (partial). Values of repeated attributes joined. False in general (C58_not_in_general): repeated values that are not strings raise TypeError. Proved for values whose str() join succeeds, i.e. strings.
  Theorems: `C58_joined_partial`, `C58_tag_partial`, `C58_not_in_general`.
* **C59** Context blocks are confined to the prolog and see only declared symbols (partial). Places in the script (`Spec/Context`). False in general (C59_not_in_general): a context block in the else clause of a for block is accepted, since that clause is not analysed. Proved for all scripts without such clauses.
  Theorems: `C59_placement_partial`, `C59_syntax_error`, `C59_undeclared`, `C59_present_partial`, `C59_missing`, `C59_declared`, `C59_not_in_general`.
* **C60** Wildcard import brings exactly the public symbols (proved). Environment of public symbols. The module is what the import oracle returns; wildcard import is related to the environment of its public symbols.
  Theorems: `C60_wild`, `C60_accepted`.
* **C61** Text blocks keep relative indentation (partial). Lines and columns. False in general: tab indentation below a first line is not removed (C61_not_in_general), and a blank first line keeps the place of the marker as whitespace (C61_not_in_general_blank_head). Proved: exact description for all lines and columns (C61_lines_partial), and the claim itself for blocks indented with spaces with text in the first line (C61_spaces_partial).
  Theorems: `C61_lines_partial`, `C61_spaces_partial`, `C61_not_in_general`, `C61_not_in_general_blank_head`.
* **C62** make_context marks unmarked names (proved). Case analysis on names, as dict updates. Names are non-empty or empty strings; caller-supplied duplicates resolve to the last one, as in a dict.
  Theorems: `C62_context`, `C62_empty`, `C62_plain`.
* **C63** Absolute script imports follow the documented search order (partial). Search order of `HyLoader`. False in general (C63_not_in_general): if the parent package of a dotted path cannot be imported by Python then the exception of importlib ends the search, though the file exists under the current folder. Proved for searches without this exception.
  Theorems: `C63_resolution_order_partial`, `C63_not_in_general`.
* **C64** Script modules are translated at most once (partial). State machine of the script loader. False in general (C64_not_in_general): a script imported by a relative path is read and translated again at each import. Proved for undotted absolute paths, requested from modules without a folder.
  Theorems: `C64_read_once_partial`, `C64_not_in_general`.
* **C65** Parsing always terminates (proved). Measure: length of the remaining text and position of the rule in a ranking of left-recursive dependencies; fuel linear in the text suffices. The matching algorithm of parsimonious 0.8.1 is modelled from its documented behaviour (trusted); bound on nested calls is linear in the length of the text. Regular expressions always terminate. Python recursion limit not modelled.
  Theorems: `C65_terminates`, `C65_terminates_rules`, `C65_parse`.
* **C66** The syntax tree is lossless and the only parse failure is an incomplete parse (proved). Induction on the match; leaves concatenate to the text. The text is the preprocessed one.
  Theorems: `C66_lossless`, `C66_incomplete`.
* **C67** The custom tag produces one element of the given name (partial). Tokenizer of `Spec/Html`. False in general (C67_not_in_general): the name is neither checked nor escaped. Proved for valid names.
  Theorems: `C67_attributes`, `C67_type_error`, `C67_element_partial`, `C67_not_in_general`.
* **C68** The comment tag hides its body (partial). Tokenizer of `Spec/Html` with comments. False in general (C68_not_in_general): the body is not escaped, so "-->" in it closes the comment. Proved for bodies without it, in particular for escaped text.
  Theorems: `C68_attributes`, `C68_hidden_partial`, `C68_escaped_text_partial`, `C68_not_in_general`.
* **C69** Batch operations of the symbol table keep first definitions (proved). Refinement as in C32. C69_context: the list of bindings used in the model of name analysis is refined by the MultiDict model.
  Theorems: `C69_pushall`, `C69_pushnew`, `C69_pushnew_reset`, `C69_asdict`, `C69_branch`, `C69_context`.
* **C70** Concatenation and formatted strings join texts in order (proved). As C43.
  Theorems: `C70_concat`, `C70_format`, `C70_none`, `C70_constant`, `C70_sum`.
* **C71** Repeated not and unary minus (proved). As C43. Note that an even number of not gives the operand, not its truth value.
  Theorems: `C71_not`, `C71_cancel`, `C71_even`, `C71_odd`, `C71_minus`.
* **C72** Calls, subscripts and collections receive their parts in order (proved). As C43.
  Theorems: `C72_call`, `C72_call_object`, `C72_index`, `C72_slice`, `C72_missing_part`, `C72_collections`, `C72_dict`, `C72_tails`.
* **C73** In-place assignment is assignment of the binary operation (proved). As C43. The right side is evaluated before the variable is read.
  Theorems: `C73_inplace`, `C73_as_plain`, `C73_unbound`.
* **C74** A hypertag used in an expression is a function that renders it (proved). Unfolding of the callback against the specification of rendering a hypertag with a text node. Keywords self and body_string are rejected by Python itself (C74_reserved).
  Theorems: `C74_mention`, `C74_call`, `C74_no_body`, `C74_keyword_body`, `C74_reserved`.
* **C75** Imports bind exactly the requested symbols (proved). Environment with one more binding; for whole statements induction over the items (`Props/ImportStatements`), with the slots of each item fresh for the later ones.
  Theorems: `C75_statement`, `C75_named`, `C75_missing`, `C75_module_state`.
* **C76** Expressions are grouped by the precedence of operators (proved). `Spec/Written`: written forms of expressions by levels. The parser is run symbolically on an arbitrary written form (`Lemmas/Steps`, `Reads`), by induction on it: every rule of the PEG succeeds or fails as it should, given what follows. Uniqueness is a consequence. Written forms are specified in Spec/Written.lean, independently of the grammar. They leave out forms listed there that the grammar reads otherwise (e.g. x!=y without a blank), numbers that begin with a point, and raw strings of several lines (C117).
  Theorems: `C76_assignment`, `C76_unambiguous`, `C76_tighter_first`, `C76_tighter_second`, `C76_same_level`, `C76_parentheses`.
* **C77** Whole scripts are loaded as the statements they denote (proved). `Spec/Scripts`, `Spec/Source`: written forms of statements over a layout of lines and groups. As C76, with the encoding of indentation composed in. Written scripts are specified in Spec/Scripts.lean, independently of the grammar. Hypothesis MarksApart: the mark characters are not letters or digits of Unicode (true for the default marks).
  Theorems: `C77_script`, `C77_unambiguous`.
* **C78** The condition of if, elif and while is the whole expression after the keyword (partial). From C77 for expressions whose first operand is not followed by one of `! / | :`; counterexample for the others. False in general (C78_not_in_general): "if x != y:" is read as "if x" with the verbatim text "= y:" (C78_first_operand, for every x and y); likewise with / | : after the first operand. Proved for all other expressions.
  Theorems: `C78_if_partial`, `C78_while_partial`, `C78_first_operand`, `C78_not_in_general`.
* **C79** A page template is rendered to the markup it stands for (proved). `Spec/Pages`: pages, how they are written and the markup they stand for. C77 gives the loaded tree; translation is followed on an abstract store (`Lemmas/Makes`, `Shows`), analysis resolves the variables, and rendering is computed on the unfolded heap. End to end: loadScript, analyseDocument, translDocument and renderNode. Values of variables in texts are printed on one line (values of attributes may have newlines). Elements are HTML tags; expressions are variables (C84 has also fields, conditions, loops and assignments).
  Theorems: `C79_page`.
* **C80** Values of variables never change the structure of a page (proved). C79 and the tokenizer. Composition of C79 with the tokenizer of C06. Verbatim and markup texts have to be free of active markup; nothing is demanded of values in normal texts and attributes, except that those in texts are printed on one line.
  Theorems: `C80_structure`.
* **C81** Whatever a script does, the document it makes is a finite tree (proved). `Spec/Policy`: what values, nodes and memory may contain. Every operation of the evaluator and translator keeps the invariant (`Lemmas/Policy*`), where references only point to older nodes; hence unfolding of the heap terminates. The policy layer (Spec/Policy.lean): an invariant of memory kept by every operation of the evaluator and the translator. External code is any code that conforms to it (Honest); the invariant makes every node younger than the nodes in its body.
  Theorems: `C81_tree`.
* **C82** Whatever a script does, its document has balanced markup made of the available tags (partial). The same invariant with a policy that allows only safe texts, available tags and valid names of attributes, which implies that the rendered text is balanced (`Spec/Balanced`). False in general (C82_not_in_general): the body of a hypertag called in an expression is not escaped, and may get to the document through a variable of the hypertag that is not cleared after its expansion. Proved for scripts without such calls (and without verbatim and markup lines that contain active markup), for tags of HTML and the null tag; custom tags are left out.
  Theorems: `C82_balanced_partial`, `C82_not_in_general`.
* **C83** Every script that loads is a well-made tree, and setup never meets an unexpected child (proved). Each rule of the grammar is assigned the kinds of nodes it derives (`Lemmas/Kinds`, `Derivations`: derivations over-approximate the PEG); `setup` of each node class maps children of these kinds to well-made trees (`Lemmas/Fit*`), by induction on the derivation. Hypothesis MarksApart: the mark characters are not letters or digits of Unicode (true for the default marks). Proved from a typing of the grammar: each rule is assigned the kinds of nodes it may derive, and setup of each node class is shown to map children of these kinds to the expected trees.
  Theorems: `C83_wellmade`, `C83_never_malformed`, `C83_unanalysed`, `C83_blocks`.
* **C84** A template with conditions, loops and variables is rendered to the markup it stands for (proved). `Spec/Templates`: templates, how they are written, and the markup they stand for as a function of the data; `Spec/PyData`: objects that stand for data. By induction on templates (`Lemmas/Templates`): C77 gives the loaded tree; analysis keeps the slots of all names in use (`Lemmas/TemplateCtx`), and execution keeps a relation between the data and the values of slots (`Lemmas/Situations`), with loops by induction on the list. End to end, as C79, which is a special case. Data are represented by Python objects (Spec/PyData.lean) whose truth, text and fields have no side effects, and iterators that do not disturb one another; lists are shorter than the bound on iterations in the model. Empty lines at the beginning of the body of a control block give one more empty line (Spec.opening), as in the code. Assignments of variables in scope are left out (cf. C55 - C58).
  Theorems: `C84_template`.
* **C85** Data influence the structure of a document only through conditions and loops (proved). C84 and the tokenizer. Composition of C84 with the tokenizer of C06. Verbatim and markup texts have to be free of active markup whenever they are output.
  Theorems: `C85_structure`.
* **C86** A script with components is rendered to the markup it stands for (proved). `Spec/Components`: definitions, how they are written, and the markup of uses, as functions of arguments and bodies. Each definition satisfies a contract (`Lemmas/ComponentDefs`): expanding it with values for arguments and nodes for the body gives nodes that show its markup; by induction on the list of definitions (`Lemmas/Programs`), with C84 generalised to templates that use components with contracts. End to end, extends C84 by definitions at the top level (one per name, each with a new name) and uses with named arguments. The table of definitions is any one that has those of the script (C88_table gives one). A body is embedded at most once and not in loops: otherwise layout of shared nodes is wrong (examples in Props/Components.lean). A component has one line at least.
  Theorems: `C86_components`.
* **C87** Arguments of components never change the structure of a document (proved). C86 and the tokenizer. Composition of C86 with the tokenizer of C06. Verbatim and markup texts have to be free of active markup whenever they are output.
  Theorems: `C87_structure`.
* **C88** Definitions of a script begin at different positions (proved). `Lemmas/DefIds`: positions of `block_def` nodes of a derivation are increasing and within the text of the node; rewriting, setup and analysis keep them. Justifies the identification of hypertag objects by positions in the model. By induction on derivations of the grammar (over-approximating the PEG) and on rewriting and setup; analysis by mutual induction.
  Theorems: `C88_positions`, `C88_table`.
* **C89** A script that was parsed is rejected exactly for misplaced attributes, repeated parameters, in-place assignment to several variables, misplaced qualifiers and bad literals (proved). `Spec/Faults`: faulty nodes of the rewritten tree. `Lemmas/Faults`: a signature of nodes that decides faults of parents is computed equally from the tree and from what setup has made of it; each function of setup rejects exactly the fault of its node or a malformed tree, which C83 excludes. Both directions, for every parsed text (Spec/Faults.lean describes faulty nodes of the rewritten tree). Uses C83: setup never meets unexpected children. No script is known in which the clause for `block_expr` applies, since braces are read as a set there.
  Theorems: `C89_loads`, `C89_first_fault`, `C89_assertion`.
* **C90** Analysis accepts a script exactly when names, imports and places are right, and reports the first fault (proved). `Spec/Checks`: the list of checks of a document, with symbols in scope as a plain list. `Lemmas/Checks`: `analyse` fails with the first failed check or succeeds with none, by mutual induction, with the invariant that the context resolves exactly the symbols in scope. `Lemmas/ChecksMade`: checks of parts of a statement; no check of a well-made statement is an internal error. Both directions, with the exception that is raised. The specification has no contexts, slots or depths, only lists of symbols in scope and two flags. Clauses of a `for` block after the first one are not analysed by the code, so they are not checked in the specification either (a defect, see C56 and C59).
  Theorems: `C90_accepted`, `C90_first`, `C90_places`, `C90_errors`.
* **C91** Error messages point to the place in the original script (proved). `Model/Errors`: `ParserError`, `HError.make_msg`. `Lemmas/Errors`: by induction on the lines, any text without marks in the encoded script lies in one line of the script, preceded by as many newlines as the number of the line, and the balance of marks before it is the length of the indentation of this line. The position of a node is any interval of the encoded text; C66 relates nodes to it. For nodes of several lines (such as a definition inside of a control block) the column is wrong if the indentation of the first and the last line differ; the theorem states by how much. The line is that of the end, not of the beginning.
  Theorems: `C91_position`, `C91_multiline`, `C91_text`.
* **C92** A Python module gives scripts exactly its attributes as variables and its registered tags (proved). `Model/PyModule`: `PyModule.__init__`, `Registry`. `Lemmas/PyModule`: lookups in updated dictionaries; induction on the sequence of registrations. Python objects are opaque; keys of `__tags__` are strings; access to attributes of the module does not fail. Two keys `x` and `%x` of `__tags__` stand for the same symbol, this is excluded in C92_tag.
  Theorems: `C92_variable`, `C92_tag`, `C92_only`, `C92_accepted`, `C92_registry`.
* **C93** Scripts that import scripts: the cache is invisible, no file is translated twice, circles cannot be imported (proved). `Model/Project`: `import_module`, `HyLoader.load` and `translate` calling each other, with fuel. `Spec/Project`: the meaning of paths without a cache (mutual inductive predicates). `Lemmas/Project`: an invariant of the cache (it holds meanings, its keys are what was translated, each once); a file whose translation succeeded cannot be below itself (accessibility by induction on its meaning), so it is not translated again within its own translation; termination by well-founded induction; circles by induction on the fuel. Translation of a script is modelled by its interaction with the runtime (requests for modules, then a result). `C93_cycle` holds for all projects; the other claims for paths that mean the same file for every importer, as relative imports are translated again for each request (C64_not_in_general). A recursion too deep (RecursionError in Python) is `none` in the model.
  Theorems: `C93_meaning`, `C93_unique`, `C93_complete`, `C93_once`, `C93_ends`, `C93_elsewhere`, `C93_cycle`.
* **C94** render() gives a script exactly the variables and tags it was called with (proved). `Model/Render`: four calls with keyword arguments, one after another. The result is computed in closed form (`runtimeRender_eq`), then C62. C94_received for names without marks (as of Python variables; C62 has the other ones). The script is assumed to be parsed without an exception, which would come before the TypeError for __builtins__.
  Theorems: `C94_accepted`, `C94_received`, `C94_typeError`.
* **C95** A Django template receives the data, the request and the file that belong to it (partial). `Model/Render`: `get_template`, `Template.render` with the dictionary object of the caller. Induction on the candidates; lookups in the updated dictionary; C94. False in general (C95_not_in_general): `Template.render` adds the request, the CSRF token and the file to the dictionary of its caller; when the dictionary is used again, the next template is told to come from the file of the first one and receives the request and the token of the first one. Proved for renderings with separate dictionaries; the other claims in general.
  Theorems: `C95_template`, `C95_missing`, `C95_received`, `C95_own_partial`, `C95_shared`, `C95_not_in_general`.
* **C96** A variable assigned in a control block is visible after it (partial). `Spec/Visible`: which variables a statement assigns to in its own namespace, read off the statement. `Lemmas/Visible`: mutual induction over statements with the invariant `Level`: what a statement adds to the context is what it introduces or, if the name was unknown, defines, and all assignments go to the variable the name denotes after it. Then C50 for the value. False in general (C96_not_in_general, end to end): inside of a tagged block, when the name exists in an outer namespace, the variable assigned in a branch of an if/try/while block is dropped by `reset` and not added again by `pushnew`, so the next sibling sees the outer one. Proved for all names that are new, or of the same namespace, or outside of tagged blocks. The clause about values is for `if` blocks, whose taken branch ends with the assignment. `else` of `for` is not analysed by the code (C53).
  Theorems: `C96_visible_partial`, `C96_document_partial`, `C96_value_partial`, `C96_not_in_general`.
* **C97** A script exports exactly its top-level symbols, with their final values (partial). The same invariant for the list of top-level statements; `slotsOut` are the entries added since the globals. Values: the slots are read at the end, and analysis of one more use of the name resolves to the same slot. False in general (C97_not_in_general): a variable assigned on the top level that has the name of a global symbol (an argument of render(), a builtin) is not exported. The exact set is proved for scripts without `else` of `for`; the clause about values holds for all scripts.
  Theorems: `C97_exported_partial`, `C97_values`, `C97_not_in_general`.
* **C98** Layout: modifiers, mixed bodies, the null tag and pass (proved). `Spec/Sheets`: templates with modifiers; their output as a list of parts, each on its line or a new one, at its level or at the margin. `Lemmas/Sheets`: as C84, where the nodes of a block show its parts. The content of texts is one line, as in C84. The small theorems (`C98_append`, `C98_line`, `C98_null_tag`, `C98_pass`, `C98_inline_body`) describe the text a template stands for, `C98_layout` says that the code renders it. Deviations from docs/index.md, in examples: `...` before a control block and `<` inside of one have no effect, and a block after an empty line and `...` begins on a new line but is not indented; the null tag before nested blocks keeps their indentation.
  Theorems: `C98_layout`, `C98_append`, `C98_line`, `C98_null_tag`, `C98_pass`, `C98_inline_body`.
* **C99** Relative imports are relative to the package the script is located in (partial). `Spec/Packages`: components of packages and folders. `joinPath` is computed by C28 on components; the place of the script that is found follows. False in general (C99_not_in_general): a script found by an absolute path through a Python package is told the path of its folder as the name of its package, so its relative imports of existing scripts are rejected with ImportErrorEx. Proved for scripts found by relative imports, to any depth: C99_relative_partial gives the place of the imported script as well, so that it can be applied again. Not covered: absolute paths found in the folder of the importer.
  Theorems: `C99_relative_partial`, `C99_python`, `C99_beyond`, `C99_not_in_general`.
* **C100** Expansions of hypertags do not influence each other (partial). `Spec/Fresh`: definite assignment. `Lemmas/Fresh`: two runs that agree on a set of variables of each state, closed under all constructs (the frames of C54 and C55, with a set for each state); `Lemmas/Sure`: after a statement they agree on what it has assigned, by induction on the judgement; `Lemmas/Tidy`: attributes, then induction on the depth of expansions. Earlier expansions keep the outer variables by C55 and the indentation by C54. False in general (C100_not_in_general, and an example end to end): slots of local variables are never cleared, so a variable assigned only in some cases has the value of the expansion before. Proved for sets of hypertags each of which uses only its attributes, variables it has assigned before in any case (`Sure`, a definite-assignment judgement: both branches of `if`, nothing of loops and `try`), and variables outside that no hypertag assigns. Definitions nested in others, which use the variables of these, are not covered. Python code sees neither variables nor indentation (trusted base).
  Theorems: `C100_variables_partial`, `C100_independent_partial`, `C100_function_partial`, `C100_not_in_general`.
* **C101** Symbols that a script does not mention make no difference to it (proved). `Spec/Mentions`: the symbols that occur in a statement. `Lemmas/Mentions`: analysis in a context with more symbols below gives the same error, or the same statement in a context with these symbols below, by mutual induction; all slots it uses are newer. `Lemmas/Unslotted`: loaded scripts have no slots (C83), which is needed for the second clauses of `for` that are not analysed; translation does not depend on slots that are not read (the relation of C100). The additional symbols come first in the dictionary of builtins and their names are valid symbols. The numbers of slots in the two documents are made to coincide: a slot is an object without order, and `first` only says which numbers are in use. Hypertags of other documents are assumed to have other slots. Arguments of render() that a script does not declare are covered by C59. Symbols that the script assigns count as mentioned: a builtin of the same name takes the variable away from the exports (C97).
  Theorems: `C101_faults`, `C101_analysis`, `C101_document`.
* **C102** Names of variables and tags do not matter (proved). `Spec/Rename`: the tree with other names. `Lemmas/Rename`: analysis of the renamed tree in the renamed context is the renamed result, by mutual induction; lookups, `pushnew` and dictionary updates commute with injective renamings of keys. `Lemmas/RenameTransl`: translation reads slots, not names, except names of attributes; so it is equal, as a function of the machine. On parsed scripts (trees), before analysis: that the text with other names is parsed to the tree with other names is not proved, except that examples run from the text. A renaming is a pair of injective functions, for variables and for tags, that keep the empty name. Attributes of hypertags keep their names, since callers use them as keywords, and so do the symbols that `import *` brings. The faults of imports mention the name in the module, which stays. C102_definitions: the definitions of the renamed script are the renamed definitions.
  Theorems: `C102_analysis`, `C102_definitions`, `C102_document`.
* **C103** split_where cuts a sequence exactly where its test holds (partial). `Model/Nifty`: the loop with its variables. `Spec/Nifty`: ranges of consecutive pieces; positions where the test holds. Invariant of the loop (`CutInv`). False as to the ranges (C103_not_in_general; C103_last_range: for every non-empty sequence the last `stop` is too small by one). Pieces and cuts are proved without restriction. The test is a pure function that does not raise.
  Theorems: `C103_pieces`, `C103_cuts`, `C103_ranges_partial`, `C103_last_range`, `C103_not_in_general`.
* **C104** Sequence utilities lose nothing and keep the order (proved). Inductions on the sequence with the accumulators of the loops. `partition`: the test threads a state, so that the number and order of its calls are part of the result. `flatten` of a string as the only argument, which gives its characters, is not modelled; nor are infinite iterables.
  Theorems: `C104_batch`, `C104_partition`, `C104_flatten`, `C104_flatten_lists`, `C104_duplicates`.
* **C105** File name extensions are dropped, set and read consistently (partial). `Spec.PathSplit`: a path is a directory and a last component. First and last dots by decompositions of lists. False in general (C105_not_in_general): for names such as `.profile` `setext` takes the whole name for the extension, and `getext` (`os.path.splitext`) does not. Proved if the name before the extension has a character other than a dot. POSIX separators. `normdir("")` is the root.
  Theorems: `C105_dropext`, `C105_dropexts`, `C105_setext`, `C105_dropexts_dropext`, `C105_getext_partial`, `C105_getext_setext`, `C105_not_in_general`, `C105_normdir`.
* **C106** push and pop of a logger's context are stacks, one for each key (proved). `Spec.stackOps`: an independent stack for each key. Simulation (`LoggerRel`): the context and the stacks of the logger together are these stacks; the key of a stack that is not empty is in the context. `del log[key]` breaks the discipline (C106_del_breaks) and is not among the operations. Locks and output are not modelled.
  Theorems: `C106_stacks`, `C106_restore`, `C106_del_breaks`.
* **C107** Dictionary utilities select, complete and split entries correctly (proved). Lookups in updated dictionaries; inductions on the keys. The order of the entries of `subdict` depends on the loop (example).
  Theorems: `C107_subdict`, `C107_subdict_strict`, `C107_setdefaults`, `C107_splitkeys`.
* **C108** Derived comparison operators are consistent (proved). Case analysis on the values of `<`. C108_weaker_orders_fail: for a partial order `==` is not transitive.
  Theorems: `C108_operators`, `C108_weaker_orders_fail`.
* **C109** Scripts can be put together (proved). `Steady`: syntactic judgement on grammar expressions that tells which character or balanced group must end a text for a match inside of it to stay the same when more text follows; derived for all rules of the grammar (`rules_steady`). By induction on the runs of the parser (`run_carries`) each run inside of the first text succeeds or fails as before, as no regular expression looks past the last character of a line, and lookaheads at its end are excluded by `Ending`. The encoding composes (`enc_append`), and blocks of a document are a repetition (`BlockSeries.join`). `rewrite` and `setup` commute with a change of positions (`rewrite_moved`, `setup_moved`), as text blocks begin after a newline (`Derives.block_within`), so that their columns stay the same. Up to the statements that analysis and translation start from (C109_statements). The conditions on the letter `r` and on two-word operators are sufficient, not necessary; that on `else` is needed also for tags whose names begin so (C109_else_taken).
  Theorems: `C109_together`, `C109_statements`, `C109_else_taken`.
* **C110** A block @ embeds exactly the nodes of its value (proved). `Spec.Holds`, `HoldAll`: what values and elements stand for; `Inserted`: the effect on the machine. Induction on the elements; `OnlyIndent` is an invariant of `relative_indent` (induction on its depth), and nodes that are in no body get the new indentation (`setIndent_indent`). Values that the translator does not look into (lists, generators) are listed by Python code outside of the model (`toList`, `flatten`; C34 is about `DOM._flatten` itself). Setting the indentation may fail by the assertion of `relative_indent`; it does not for texts (C110_texts) and in scripts as in C79, C86.
  Theorems: `C110_dom`, `C110_node`, `C110_sequence`, `C110_no_sequence`, `C110_wrong_element`, `C110_covered`, `C110_texts`.
* **C111** Values have one truth (proved). `Spec.Falsy`, `Spec.Truthy`: lists of values. By cases on the value, then the unfolding of each construct. Values of Python code are tested by their own `__bool__`, which is outside of the model and may have effects or fail (C43 has the hypothesis that testing twice is the same as testing once; C111 needs none).
  Theorems: `C111_either`, `C111_false`, `C111_true`, `C111_blocks`.
* **C112** Independent scripts put together are rendered one after another (proved). `Stmt.reslot f`: the statements with slot `f s` for each slot `s`. Analysis in contexts whose symbols correspond by `f` gives statements that correspond by `f` (`analyseAll_seated`, by induction on statements; `Ctx.Seat` says how contexts correspond); translation of statements that correspond, on machines whose slots hold the same values, gives the same results (`translAll_sim`, `envAt_sim` for hypertags, by induction on the depth of expansion), provided that no two slots that are written become one (`Own`). For two scripts `f` sends the builtins of the second to those of the first and closes the gap (`joinSlot`); the values correspond as neither script writes to slots of builtins (`NeatAll`, `setSlots_fills`). At the level of statements, after parsing: that two texts put together have the statements of both is C109. Conditions are sufficient, not necessary; C112_builtin_shared shows that the one on builtins cannot be dropped. Rendering of the second script alone is stated with builtins in slots of their own (`Spec.inTurn`), and C112_numbering, C112_renumbered say that their numbers do not matter.
  Theorems: `C112_first_fault`, `C112_document`, `C112_numbering`, `C112_renumbered`, `C112_builtin_shared`.
* **C113** Comments make no difference (proved). `Stmt.plainAll`: the statements without comments. Analysis and translation commute with it by mutual inductions on statements; analysis does not make comments or remove them (`analyse_remark`). Translation is equal as a function of the machine; for hypertags by induction on the depth of expansion (`envAt_plain`). At the level of statements, after parsing (that a comment is parsed as one, whatever is indented below it, is part of C77). Inline comments at the ends of lines leave nothing in the statements. Positions of definitions, which are identities of hypertags, are taken as they are.
  Theorems: `C113_one_analysed`, `C113_one_translated`, `C113_left_out`, `C113_analysed`, `C113_hypertags`, `C113_translated`.
* **C114** A hypertag that is not mentioned makes no difference (proved). On top of C112: analysis of what is below the definition, in the context with the symbol and without it, corresponds by a shift of slots (`analyseAll_seated`). The slot of the name is the last one that the definition takes, and no statement of it contains that slot (`defn_apart`). So there is a correspondence of all slots but this one (`aroundSlot`, `aroundBack`), by which the tables of hypertags and the machines correspond; the slot of the name is written, but corresponds to no slot of the other script (`defn_sim`). At the level of statements, after parsing, and for definitions among the blocks of a document. That the definition has no fault is a hypothesis: unused definitions are checked, too. The table of hypertags of the script without the definition is given by the theorem (bodies have other slots); other documents have lower slots, and no value is in slots that were not given so far.
  Theorems: `C114_document`.
* **C115** A script has one outcome (proved). `Lasts c c'`: whenever `c` ends, `c'` ends in the same way and with the same memory. All constructs keep it (`Lemmas/Lasts`); then induction on the bounds. A too deep recursion is a timeout in the model; Python raises RecursionError at its own limit, which a try block catches. Scripts that come near this limit are outside of the model.
  Theorems: `C115_larger`, `C115_one`, `C115_noticed`, `C115_parts`, `C115_endless`.
* **C116** Whitespace at the ends of lines makes no difference (proved). `preStep` depends on the line without trailing whitespace only; induction on the lines. The marks chosen are the least codes not in the text, so they depend only on characters from U+2768 on. `Spec.parsesAlone` is the test of `_locate_error`. An IndentationError within `_locate_error` counts as a failure to parse.
  Theorems: `C116_encoded`, `C116_loaded`, `C116_located`, `C116_crlf_lines`, `C116_crlf`, `C116_chosen`.
* **C117** The choice of marks makes no difference (partial). `recode` exchanges the marks of one choice for those of the other. The expressions of the grammar are related pointwise: classes of characters either contain all marks or none, or are the marks themselves (`rules_recode`); so the parser gives the recoded tree (`parse_recode`, by induction on the fuel). Texts of nodes that setup reads contain no marks (`Derives.clean`): by their regular expressions, for raw strings as the quote is closed in its line, for paths of imports as a blank follows, which never follows a mark. Partial: equality of statements holds if raw strings are closed on their lines. A raw string of several lines contains the marks instead of indentation (`C117_not_in_general`). Marks are assumed to be no letters, digits, characters of XML names or whitespace: `get_parser` does not check this, but takes the first free codes from U+2768 on, and reaches such a code only in scripts that contain most of the symbols before it.
  Theorems: `C117_encoded`, `C117_parsed`, `C117_located`, `C117_loaded_partial`, `C117_not_in_general`.
* **C118** Scripts without while loops end (proved). `Halts`: there is a bound within which a computation ends, for all memories without cycles of nodes and hypertags in values (`Lemmas/Ends*`, by mutual induction on statements; loops by induction on what is left of the iterator, indentation by induction on nodes, which contain older nodes only). Expansions by induction on slots: each hypertag has a slot that is greater than all slots of tags in its body (`Stmt.orderly`), as analysis gives the slot of the name after the body is analysed (`analyseAll_sound`, on trees as C83 describes them). `Spec.straightAll` is a condition on the statements that the script is loaded to, and can be decided (examples). `Outside.Calm`: Python code returns, makes no iterator longer, creates no cycles of nodes, and does not call hypertags (it gets none, as they are used as tags only). Hypertags imported from other scripts are excluded.
  Theorems: `C118_document`, `C118_script`.
* **C119** Blank lines at the end of a script are kept at the end of the document (proved). The encoding of the script is followed by newlines (`enc_blankEnd`); the parser, which reads the blocks of the script up to its end, reads them in the same way before a newline (`run_carries`, as for C109), and no block begins there as no block is empty (`block_newlines`, by nullability); what remains is the margin of the document.
  Theorems: `C119_loaded`, `C119_analysed`, `C119_translated`, `C119_rendered`.
* **C120** Blank lines at the beginning of a script are kept before its first block (proved). The encoding is preceded by newlines (`enc_blankStart`). The first block yields the same tree but for its margin, as the regular expression of the margin takes all newlines (`blocks_after_blank`); the trees of the rest are moved, which setup notices in the identities of definitions only (`buildAll_moved`, as for C109). Analysis and translation by cases on the first statement.
  Theorems: `C120_loaded`, `C120_plain`, `C120_analysed`, `C120_translated`, `C120_rendered`.
* **C121** The tags available to HTML scripts are exactly the elements of HTML and the text functions (proved). `Model/StdTags`: the tables, `_create`, the decorators, and the modules `hypertag.html` and `hypertag.builtins`. The loops are updates of the dictionary of tags (`createTag_run`, induction on the lists); the symbols of the modules by C92; the dictionary of the runtime by lookups in updated dictionaries; pages by C79. `str.lower` and `str.upper` are modelled for ASCII letters. Comparisons over the two lists of names are decided, as they are constants of the code; the rest holds for all lists. `frame` and `basefont`, which HTML parsers take for void elements, too, are not void in the library (example).
  Theorems: `C121_registered`, `C121_symbols`, `C121_builtins`, `C121_runtime`, `C121_names`, `C121_void`, `C121_elements`, `C121_page`.
* **C122** A comment in the text of a script makes no difference (proved). The comment is read as one block, whatever follows in the next line (`comment_block`, by the rules of C77), the blocks of the script below are read as before, and moved (`doc_prefixed`, as for C109); above the comment by C109, as no clause of a statement begins with a mark of a comment. Then C113 for the statements. Comments on the top level; in nested blocks, C113 has the same for the statements, not for the text. The text of the comment is any sequence of characters but the marks of indentation, which are chosen apart from all characters of the script. A comment between the clauses of a statement is an error (example): it ends the statement, and `else` begins no block.
  Theorems: `C122_above`, `C122_between`, `C122_below`, `C122_same_below`, `C122_same_above`, `C122_same_between`.
* **C123** Tags called as functions return what is rendered from nodes (proved). `Model/TagCall`: `__call__` with the binding of its arguments. `Spec.Call` is a nesting of calls, with its value and its nodes; mutual induction on it, as expansion of a tag depends on its body only through the rendered text. The text of the body is not escaped, as `Tag.__call__` says; escaping is left to the text block where the call is written (C01, C82). For tags other than the standard ones the converse on exceptions may fail: a tag may expand without rendering its body.
  Theorems: `C123_rendered`, `C123_all_rendered`, `C123_raises`, `C123_all_raise`, `C123_empty`, `C123_keyword`, `C123_self`.
* **C124** The module of Django's filters has exactly the filters of Django (proved). `Model/Django`: the statements of the module as updates and deletions of its dictionary, with lookups of names in it. By the values of names in updated and erased dictionaries; symbols for scripts by C92. Django itself is not modelled: its two dictionaries of filters are arbitrary, `django.setup()` succeeds and does not change them. That the module cannot be imported in a running site, where settings are configured, is how the code behaves (`C124_importable`); a comment in the code says that default settings are always used.
  Theorems: `C124_contents`, `C124_import`, `C124_importable`, `C124_names_matter`.
* **C125** A variable that is not mentioned makes no difference (proved). As C114, of which the common part is `left_out_same`: the line takes one slot, writes to it only (`assign_silent`), and the rest of the script corresponds by a shift of slots around it. For other expressions the evaluation may raise an exception or change something. A context block below the line is excluded, as it is allowed only if nothing but comments and other context blocks is above.
  Theorems: `C125_document`.
* **C126** An import whose symbols are not mentioned makes no difference (proved). As C125, with as many slots as the imports take (`analyseImports_next`): the rest of the script corresponds by a shift of slots (`liftSlot`) whose values are all outside of these slots, so that what the import writes is not seen (`Aside`). Modules are given by their symbols and states (as for C29, C64); side effects of Python code that runs when a python module is loaded for the first time are not part of the claim. A context block below an import from a module is excluded, as for C125; below another context block it is not.
  Theorems: `C126_document`.
* **C127** A block whose conditions are never true makes no difference (proved). With C126 an instance of one theorem (`passed_document`) on statements that write to their own slots at most and make nothing (`Stmt.Passes`): conditions are kept by analysis and are false (`translIf_never`; for `while` the first test ends the loop), so no body is translated. `C127_while`: for every bound on the number of rounds but 0, as the model counts the first test as a round. Numbers as conditions are not covered, as their truth is an operation of Python. Definitions in a control block are rejected anyway, except in clauses that are not analysed (see C90).
  Theorems: `C127_document`, `C127_while`.
* **C128** The order of declarations that do not mention each other makes no difference (proved). Each block is analysed in the same way at both places but for a shift of its slots (`later_seat`, `analyse_seated`); the rest of the script corresponds by the exchange of two ranges of slots (`swapSlot`, `lookup_swap`). A declaration only sets its slots (`Declaration.brings`), and assignments to different slots commute with each other and with texts. Any order by induction on permutations (`order_alike`). For the loaded statements: a definition keeps its identity, which in the text is its position. The blocks are free of faults. Context blocks below are excluded, as for C125.
  Theorems: `C128_document`, `C128_order`.

## 5. Trusted base

* The Lean kernel. Axioms used by the theorems: only `propext`, `Classical.choice`, `Quot.sound` (checked with `#print axioms` for all theorems of `MANIFEST.json`). There are no
  axioms of our own, no `sorry`, `native_decide` or `bv_decide`. `decide` and `decide +kernel` are used in examples, in counterexamples, and for finite facts about the grammar (such as "the kinds assigned to the rules are
  consistent"), never in place of an induction.
* Faithfulness of `Verif/Model` to the Python source, reviewed by hand; each definition cites the lines.
* Behaviour of Python and its library as described in the comments of the model: `str` methods, `re`, `dict`, `itertools`, `xml.sax.saxutils.quoteattr`, generators, argument binding.
* The matching algorithm of parsimonious 0.8.1 (not in /repo; taken from its documentation and source): ordered choice, greedy repetition without backtracking into it, lookahead, regular expressions matched at a position, `IncompleteParseError`.
* The specifications in `Verif/Spec`, which are what the theorems are about. They are small and independent of the functions of the model.

## 6. What is not modelled

* Django itself, `nifty/util.py` except the utilities of C103-C108 and `unique`, `errors.py` beyond the kinds of exceptions and the positions in messages (C91).
* The file system, `importlib` and `sys` in loaders (opaque operations that may fail).
* Performance, memory limits, Python's recursion limit, threads.
* Direct access of user code to translation states, AST nodes or caches of the runtime.
* Lone surrogates in strings.

## 7. Defects of the code found on the way

Properties that are false are proved so by `Cnn_not_in_general`; others are recorded as notes.

*Rendering and tags.* `DOM[i:j]` wraps the nodes in an extra list (C39). `alter` interchanges preorder and postorder (C40). `select`/`skip` by attribute raise `TypeError` at text nodes (C36, C37). Names of custom tags and bodies of comments are not
escaped (C67, C68). Text given to a hypertag that is called as a function is not escaped and leaks into the document through slots that are not cleared after expansion (C82; ast.py:134-140).

*Blocks.* An empty `else` raises `AssertionError` (C50). A `for` with an `else` clause but no body repeats the clause for each element (C51), and its `else` clause is not analysed (C56, C59). `try` does not roll back assignments, and its own closing `set_indent` may raise (C53).
A control block inside of a tagged block that assigns an outer variable is not visible after it (`pushnew`, C96). Tab indentation in text blocks is not removed, and a blank first line leaves the place of the marker (C61). Empty lines at the beginning of the body of a control block give one additional empty line (C84). A `...` before a control block and a `<` inside of one have no effect (C98). A variable assigned on the top level is not exported if a global symbol has its name (C97). A local variable of a hypertag keeps its value until the next expansion (C100).

*Expressions.* Truth of intermediate operands of `and`/`or` is tested twice (C43). The truth test of `?` is outside of its `try` (C45). `x, = [1]` does not unpack. `not not x` returns `x`. `-None` is `None`. In-place assignment evaluates the right side before the
variable (C73). Repeated attributes that are not strings raise `TypeError` (C58). Duplicate keywords in a call: the last one wins silently. Defaults of hypertag attributes are evaluated at expansion.

*Hypertags.* Slots of a hypertag are not cleared after expansion, and re-entrant expansion overwrites them (C55 note). Keywords `self` and `body_string` cannot be used for hypertags called in expressions (C74). `EmbeddedHypertag` called with `''` on a void hypertag raises. A body that is embedded twice has wrong line breaks or indentation at one of the places, as its nodes are shared (examples in `Props/Components.lean`).

*Grammar.* `\"` cannot occur in `"..."` (grammar.py:286-287). `if x != y:`, `if a / b`, `if a | b`, `if x : f` end the condition after the first operand (C78; grammar.py:52). `if x  # comment` with an empty body is a syntax error. `x!=y` without a blank and `{x}!`, `{x}?` in texts take the
character for a qualifier. `(x)?` applies the qualifier twice. `a[x : f]` is a slice, `{x : f}` a dict, an attribute value `{1:2}` an embedded pipeline. `in`/`is` have no word boundary. Names beginning with `True`, `False`, `None` are read as literals; tags whose names begin with `try` cannot be used, and those beginning with
`else` break an `if` block before them (C109). A reserved word followed by a non-ASCII letter is accepted as a name. `div .5` is read as a number. `% h @ x` reads `@ x` as the formal body. A partial dedent inside of a body is a syntax error. Raw multi-line strings contain mark characters. `tag {x}?` and `% h x={y}?` fail with
`AssertionError` in setup (C89). `_locate_error` assumes monotonicity that does not hold. Names of attributes may contain U+1680, which is whitespace. A raw string `r'...'` that continues on the next line contains the marks of indentation in place of the indentation itself, and they get into the document (C117); with unbalanced indentation it is a syntax error.

*Runtime.* The search for a dotted path ends with the exception of `importlib` if the parent is no Python package, though the documented later steps would find the file (C63). Scripts imported by relative paths are read and translated again at each import (C64). `Loader` caches `None` for a module that was not found. Variables called `builtins` or `self` cannot be given to `render()` (C94). The Django backend changes the dictionary of its caller, so that a request and a file name leak into later renderings (C95). `hypertag.django.filters` cannot be imported where settings of Django are configured already, as in a running site (C124). Scripts that import each other never end (C93). A script imported through a Python package takes the path of its folder for the name of its package, so that its relative imports fail (C99). A file `builtins.hy` in the current directory replaces the built-in module. `preprocess` maps any whitespace other than a space to the tab mark.

*Utilities.* `split_where` gives `key_func` a wrong end of the last piece (C103). `setext` and `getext` disagree about names that begin with a dot; `normdir('')` is the root (C105). `del log[key]` leaves a stack behind (C106). `divup` never rounds up, as `/` is true division in Python 3. The labels of `Object` are given by `__metaclass__`, which Python 3 ignores.

## 8. Mutation testing

`seeded/LOG.jsonl` has one line per wrong program: the definition edited, the edit, the claim it breaks, the theorems that no longer prove, and the theorems added or tightened because none failed. Scratch copies are outside of `/verif`.
