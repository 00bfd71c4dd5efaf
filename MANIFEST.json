{
 "claims": [
  {
   "property": "C01",
   "status": "proved",
   "theorems": [
    "Verif.C01_escape_safe"
   ],
   "note": "html_escape as three str.replace calls; all strings."
  },
  {
   "property": "C02",
   "status": "proved",
   "theorems": [
    "Verif.C02_escape_roundtrip",
    "Verif.C02_escape_injective"
   ],
   "note": ""
  },
  {
   "property": "C03",
   "status": "proved",
   "theorems": [
    "Verif.C03_attr_quoting_safe"
   ],
   "note": ""
  },
  {
   "property": "C04",
   "status": "proved",
   "theorems": [
    "Verif.C04_attr_roundtrip",
    "Verif.C04_attr_injective"
   ],
   "note": ""
  },
  {
   "property": "C05",
   "status": "proved",
   "theorems": [
    "Verif.C05_start_tag_parses_back",
    "Verif.C05_void_tag_parses_back"
   ],
   "note": "Quantified over attribute lists with valid names; attribute values already converted by str()."
  },
  {
   "property": "C06",
   "status": "proved",
   "theorems": [
    "Verif.C06_structure",
    "Verif.C06_structure_root",
    "Verif.C06_renders"
   ],
   "note": "Tokenizer of the specification run on rendered output; DOM trees whose tags are markup tags, texts escaped."
  },
  {
   "property": "C07",
   "status": "proved",
   "theorems": [
    "Verif.C07_void",
    "Verif.C07_positional",
    "Verif.C07_no_document"
   ],
   "note": ""
  },
  {
   "property": "C08",
   "status": "proved",
   "theorems": [
    "Verif.C08_addIndent_lines",
    "Verif.C08_line_count"
   ],
   "note": ""
  },
  {
   "property": "C09",
   "status": "proved",
   "theorems": [
    "Verif.C09_addIndent_comp",
    "Verif.C09_nested",
    "Verif.C09_rendered"
   ],
   "note": "C09_rendered: in a whole rendered tree (any depth, tags that keep their body, indentations free of newlines), the text of each node occurs indented by the concatenation of the indentations around it."
  },
  {
   "property": "C10",
   "status": "proved",
   "theorems": [
    "Verif.C10_getIndent_longest",
    "Verif.C10_getIndent_blank",
    "Verif.C10_getIndent_unique"
   ],
   "note": ""
  },
  {
   "property": "C11",
   "status": "proved",
   "theorems": [
    "Verif.C11_delIndent_lines",
    "Verif.C11_getIndent_delIndent",
    "Verif.C11_delIndent_idempotent"
   ],
   "note": ""
  },
  {
   "property": "C12",
   "status": "proved",
   "theorems": [
    "Verif.C12_indent_dedent"
   ],
   "note": ""
  },
  {
   "property": "C13",
   "status": "proved",
   "theorems": [
    "Verif.C13_no_internal_failure"
   ],
   "note": ""
  },
  {
   "property": "C14",
   "status": "proved",
   "theorems": [
    "Verif.C14_balanced"
   ],
   "note": ""
  },
  {
   "property": "C15",
   "status": "proved",
   "theorems": [
    "Verif.C15_lossless",
    "Verif.C15_injective"
   ],
   "note": ""
  },
  {
   "property": "C16",
   "status": "proved",
   "theorems": [
    "Verif.C16_line_numbers"
   ],
   "note": ""
  },
  {
   "property": "C17",
   "status": "proved",
   "theorems": [
    "Verif.C17_error_iff",
    "Verif.C17_ok_iff",
    "Verif.C17_prefix"
   ],
   "note": ""
  },
  {
   "property": "C18",
   "status": "proved",
   "theorems": [
    "Verif.C18_marks_fresh",
    "Verif.C18_marks_exist",
    "Verif.C18_usable"
   ],
   "note": "marks exist iff four free code points exist; search modelled on code points."
  },
  {
   "property": "C19",
   "status": "proved",
   "theorems": [
    "Verif.C19_locate_error"
   ],
   "note": ""
  },
  {
   "property": "C20",
   "status": "proved",
   "theorems": [
    "Verif.C20_no_backslash",
    "Verif.C20_decode_escaped",
    "Verif.C20_escaped_exists",
    "Verif.C20_other_backslash",
    "Verif.C20_incomplete",
    "Verif.C20_invalid"
   ],
   "note": "Unicode names are an arbitrary lookup; surrogates are not representable."
  },
  {
   "property": "C21",
   "status": "proved",
   "theorems": [
    "Verif.C21_merge_words",
    "Verif.C21_merge_idempotent"
   ],
   "note": ""
  },
  {
   "property": "C22",
   "status": "proved",
   "theorems": [
    "Verif.C22_unique",
    "Verif.C22_lines",
    "Verif.C22_spec_unique"
   ],
   "note": ""
  },
  {
   "property": "C23",
   "status": "proved",
   "theorems": [
    "Verif.C23_dedent"
   ],
   "note": ""
  },
  {
   "property": "C24",
   "status": "proved",
   "theorems": [
    "Verif.C24_no_newline",
    "Verif.C24_restore",
    "Verif.C24_indent_invariant"
   ],
   "note": ""
  },
  {
   "property": "C25",
   "status": "proved",
   "theorems": [
    "Verif.C25_cycle",
    "Verif.C25_no_sequences",
    "Verif.C25_empty_sequence_witness"
   ],
   "note": "The proviso is needed: C25_empty_sequence_witness."
  },
  {
   "property": "C26",
   "status": "proved",
   "theorems": [
    "Verif.C26_changes"
   ],
   "note": ""
  },
  {
   "property": "C27",
   "status": "proved",
   "theorems": [
    "Verif.C27_crop",
    "Verif.C27_preconditions"
   ],
   "note": ""
  },
  {
   "property": "C28",
   "status": "proved",
   "theorems": [
    "Verif.C28_join_path",
    "Verif.C28_components",
    "Verif.C28_other_cases"
   ],
   "note": ""
  },
  {
   "property": "C29",
   "status": "proved",
   "theorems": [
    "Verif.C29_read_once",
    "Verif.C29_same_module"
   ],
   "note": ""
  },
  {
   "property": "C30",
   "status": "proved",
   "theorems": [
    "Verif.C30_first_loader",
    "Verif.C30_not_found",
    "Verif.C30_exception"
   ],
   "note": ""
  },
  {
   "property": "C31",
   "status": "proved",
   "theorems": [
    "Verif.C31_isolated",
    "Verif.C31_override",
    "Verif.C31_failed_import_witness"
   ],
   "note": ""
  },
  {
   "property": "C32",
   "status": "proved",
   "theorems": [
    "Verif.C32_get",
    "Verif.C32_contains",
    "Verif.C32_results",
    "Verif.C32_keys"
   ],
   "note": ""
  },
  {
   "property": "C33",
   "status": "proved",
   "theorems": [
    "Verif.C33_reset_restores"
   ],
   "note": ""
  },
  {
   "property": "C34",
   "status": "proved",
   "theorems": [
    "Verif.C34_flatten",
    "Verif.C34_leaves_unique"
   ],
   "note": "Leaves are an inductive relation; existence and uniqueness are proved. Generators are read as sequences without side effects."
  },
  {
   "property": "C35",
   "status": "proved",
   "theorems": [
    "Verif.C35_walk",
    "Verif.C35_once",
    "Verif.C35_order",
    "Verif.C35_all"
   ],
   "note": "Nodes are addressed by paths; the visited paths are exactly the visible ones, sorted by document order, hence without repetition."
  },
  {
   "property": "C36",
   "status": "partial",
   "theorems": [
    "Verif.C36_select_partial",
    "Verif.C36_select_error",
    "Verif.C36_not_in_general"
   ],
   "note": "False in general (C36_not_in_general): select by attribute raises TypeError as soon as a node that passes the tag test has no attribute dict, e.g. any text node (C36_select_error). Proved exactly for DOMs without such nodes."
  },
  {
   "property": "C37",
   "status": "partial",
   "theorems": [
    "Verif.C37_skip_partial",
    "Verif.C37_skip_error",
    "Verif.C37_remaining",
    "Verif.C37_not_in_general"
   ],
   "note": "False in general for the same reason as C36 (C37_not_in_general, C37_skip_error). Otherwise proved on a heap with arbitrary sharing, including termination."
  },
  {
   "property": "C38",
   "status": "proved",
   "theorems": [
    "Verif.C38_original_untouched"
   ],
   "note": "For arbitrary heaps, including cyclic ones (where skip does not return normally)."
  },
  {
   "property": "C39",
   "status": "partial",
   "theorems": [
    "Verif.C39_slice_not_in_general",
    "Verif.C39_slice_partial",
    "Verif.C39_selected"
   ],
   "note": "False for every DOM and slice (C39_slice_not_in_general): the result contains one list instead of the nodes. The partial theorem: flattening the result again gives the right DOM."
  },
  {
   "property": "C40",
   "status": "partial",
   "theorems": [
    "Verif.C40_alter_swapped_partial",
    "Verif.C40_drop_partial",
    "Verif.C40_not_in_general"
   ],
   "note": "False (C40_not_in_general): the two orders are interchanged. Proved: what each order really does, and that the documented behaviour holds for transforms that only drop nodes."
  },
  {
   "property": "C41",
   "status": "proved",
   "theorems": [
    "Verif.C41_tree",
    "Verif.C41_line_count",
    "Verif.C41_heading"
   ],
   "note": "Headings are arbitrary; with newline-free headings the number of lines is the number of nodes."
  },
  {
   "property": "C42",
   "status": "proved",
   "theorems": [
    "Verif.C42_one_newline_dropped"
   ],
   "note": ""
  },
  {
   "property": "C43",
   "status": "proved",
   "theorems": [
    "Verif.C43_and",
    "Verif.C43_or",
    "Verif.C43_later_operands_not_evaluated",
    "Verif.C43_double_test_witness"
   ],
   "note": "The code tests the truth of an intermediate value twice; for values whose truth test is unstable the claim fails (C43_double_test_witness)."
  },
  {
   "property": "C44",
   "status": "proved",
   "theorems": [
    "Verif.C44_true",
    "Verif.C44_false",
    "Verif.C44_test_fails"
   ],
   "note": ""
  },
  {
   "property": "C45",
   "status": "proved",
   "theorems": [
    "Verif.C45_optional",
    "Verif.C45_no_exception",
    "Verif.C45_truth_test_escapes"
   ],
   "note": "The truth test of X is made outside of the try statement: an exception of bool(X) itself escapes (C45_truth_test_escapes)."
  },
  {
   "property": "C46",
   "status": "proved",
   "theorems": [
    "Verif.C46_obligatory",
    "Verif.C46_result_true",
    "Verif.C46_false_value_only"
   ],
   "note": ""
  },
  {
   "property": "C47",
   "status": "proved",
   "theorems": [
    "Verif.C47_filter",
    "Verif.C47_no_filter",
    "Verif.C47_as_call"
   ],
   "note": ""
  },
  {
   "property": "C48",
   "status": "proved",
   "theorems": [
    "Verif.C48_chain",
    "Verif.C48_minus",
    "Verif.C48_bits",
    "Verif.C48_parentheses",
    "Verif.C48_first_failure"
   ],
   "note": ""
  },
  {
   "property": "C49",
   "status": "proved",
   "theorems": [
    "Verif.C49_assign",
    "Verif.C49_success_iff",
    "Verif.C49_flat"
   ],
   "note": ""
  },
  {
   "property": "C50",
   "status": "partial",
   "theorems": [
    "Verif.C50_first_true",
    "Verif.C50_none_true_partial",
    "Verif.C50_test_fails",
    "Verif.C50_not_in_general"
   ],
   "note": "False in general (C50_not_in_general): an else clause with an empty body raises AssertionError. Partial theorem: proved for all blocks whose else clause has a body."
  },
  {
   "property": "C51",
   "status": "partial",
   "theorems": [
    "Verif.C51_for_partial",
    "Verif.C51_for_else",
    "Verif.C51_elements",
    "Verif.C51_last_value",
    "Verif.C51_not_in_general"
   ],
   "note": "False in general (C51_not_in_general): a for block with an else clause but no body repeats the clause for each element. Proved for blocks with a body or without an else clause."
  },
  {
   "property": "C52",
   "status": "proved",
   "theorems": [
    "Verif.C52_while",
    "Verif.C52_while_else",
    "Verif.C52_test_false"
   ],
   "note": ""
  },
  {
   "property": "C53",
   "status": "partial",
   "theorems": [
    "Verif.C53_first_success",
    "Verif.C53_all_fail",
    "Verif.C53_base_exception",
    "Verif.C53_no_exception_partial",
    "Verif.C53_not_in_general"
   ],
   "note": "The branches never propagate ordinary exceptions, but the closing set_indent of the block may raise AssertionError (C53_not_in_general); partial theorem excludes that."
  },
  {
   "property": "C54",
   "status": "proved",
   "theorems": [
    "Verif.C54_block",
    "Verif.C54_hypertag",
    "Verif.C54_next_branch"
   ],
   "note": ""
  },
  {
   "property": "C55",
   "status": "proved",
   "theorems": [
    "Verif.C55_names",
    "Verif.C55_values",
    "Verif.C55_document"
   ],
   "note": "Lexical part (names, slots) for every tagged block; values for every block outside of hypertag definitions (C55_document), and inside under the hypothesis that the hypertags called do not write visible slots (re-entrant hypertags share their slots)."
  },
  {
   "property": "C56",
   "status": "partial",
   "theorems": [
    "Verif.C56_rejected_partial",
    "Verif.C56_only_undefined_partial",
    "Verif.C56_accepted_partial",
    "Verif.C56_before_assignment",
    "Verif.C56_not_in_general"
   ],
   "note": "False in general (C56_not_in_general): the else clause of a for block is not analysed. Proved for all scripts without such clauses."
  },
  {
   "property": "C57",
   "status": "proved",
   "theorems": [
    "Verif.C57_definitions",
    "Verif.C57_type_error",
    "Verif.C57_bound",
    "Verif.C57_void"
   ],
   "note": "Specification: the binding algorithm of the Python language reference (6.3.4) for a function without * parameters. Defaults are evaluated at expansion, in the expanding state (unlike Python, which evaluates them at definition)."
  },
  {
   "property": "C58",
   "status": "partial",
   "theorems": [
    "Verif.C58_joined_partial",
    "Verif.C58_tag_partial",
    "Verif.C58_not_in_general"
   ],
   "note": "False in general (C58_not_in_general): repeated values that are not strings raise TypeError. Proved for values whose str() join succeeds, i.e. strings."
  },
  {
   "property": "C59",
   "status": "partial",
   "theorems": [
    "Verif.C59_placement_partial",
    "Verif.C59_syntax_error",
    "Verif.C59_undeclared",
    "Verif.C59_present_partial",
    "Verif.C59_missing",
    "Verif.C59_declared",
    "Verif.C59_not_in_general"
   ],
   "note": "False in general (C59_not_in_general): a context block in the else clause of a for block is accepted, since that clause is not analysed. Proved for all scripts without such clauses."
  },
  {
   "property": "C60",
   "status": "proved",
   "theorems": [
    "Verif.C60_wild",
    "Verif.C60_accepted"
   ],
   "note": "The module is what the import oracle returns; wildcard import is related to the environment of its public symbols."
  },
  {
   "property": "C61",
   "status": "partial",
   "theorems": [
    "Verif.C61_lines_partial",
    "Verif.C61_spaces_partial",
    "Verif.C61_not_in_general",
    "Verif.C61_not_in_general_blank_head"
   ],
   "note": "False in general: tab indentation below a first line is not removed (C61_not_in_general), and a blank first line keeps the place of the marker as whitespace (C61_not_in_general_blank_head). Proved: exact description for all lines and columns (C61_lines_partial), and the claim itself for blocks indented with spaces with text in the first line (C61_spaces_partial)."
  },
  {
   "property": "C62",
   "status": "proved",
   "theorems": [
    "Verif.C62_context",
    "Verif.C62_empty",
    "Verif.C62_plain"
   ],
   "note": "Names are non-empty or empty strings; caller-supplied duplicates resolve to the last one, as in a dict."
  },
  {
   "property": "C63",
   "status": "partial",
   "theorems": [
    "Verif.C63_resolution_order_partial",
    "Verif.C63_not_in_general"
   ],
   "note": "False in general (C63_not_in_general): if the parent package of a dotted path cannot be imported by Python then the exception of importlib ends the search, though the file exists under the current folder. Proved for searches without this exception."
  },
  {
   "property": "C64",
   "status": "partial",
   "theorems": [
    "Verif.C64_read_once_partial",
    "Verif.C64_not_in_general"
   ],
   "note": "False in general (C64_not_in_general): a script imported by a relative path is read and translated again at each import. Proved for undotted absolute paths, requested from modules without a folder."
  },
  {
   "property": "C65",
   "status": "proved",
   "theorems": [
    "Verif.C65_terminates",
    "Verif.C65_terminates_rules",
    "Verif.C65_parse"
   ],
   "note": "The matching algorithm of parsimonious 0.8.1 is modelled from its documented behaviour (trusted); bound on nested calls is linear in the length of the text. Regular expressions always terminate. Python recursion limit not modelled."
  },
  {
   "property": "C66",
   "status": "proved",
   "theorems": [
    "Verif.C66_lossless",
    "Verif.C66_incomplete"
   ],
   "note": "The text is the preprocessed one."
  },
  {
   "property": "C67",
   "status": "partial",
   "theorems": [
    "Verif.C67_attributes",
    "Verif.C67_type_error",
    "Verif.C67_element_partial",
    "Verif.C67_not_in_general"
   ],
   "note": "False in general (C67_not_in_general): the name is neither checked nor escaped. Proved for valid names."
  },
  {
   "property": "C68",
   "status": "partial",
   "theorems": [
    "Verif.C68_attributes",
    "Verif.C68_hidden_partial",
    "Verif.C68_escaped_text_partial",
    "Verif.C68_not_in_general"
   ],
   "note": "False in general (C68_not_in_general): the body is not escaped, so \"-->\" in it closes the comment. Proved for bodies without it, in particular for escaped text."
  },
  {
   "property": "C69",
   "status": "proved",
   "theorems": [
    "Verif.C69_pushall",
    "Verif.C69_pushnew",
    "Verif.C69_pushnew_reset",
    "Verif.C69_asdict",
    "Verif.C69_branch",
    "Verif.C69_context"
   ],
   "note": "C69_context: the list of bindings used in the model of name analysis is refined by the MultiDict model."
  },
  {
   "property": "C70",
   "status": "proved",
   "theorems": [
    "Verif.C70_concat",
    "Verif.C70_format",
    "Verif.C70_none",
    "Verif.C70_constant",
    "Verif.C70_sum"
   ],
   "note": ""
  },
  {
   "property": "C71",
   "status": "proved",
   "theorems": [
    "Verif.C71_not",
    "Verif.C71_cancel",
    "Verif.C71_even",
    "Verif.C71_odd",
    "Verif.C71_minus"
   ],
   "note": "Note that an even number of not gives the operand, not its truth value."
  },
  {
   "property": "C72",
   "status": "proved",
   "theorems": [
    "Verif.C72_call",
    "Verif.C72_call_object",
    "Verif.C72_index",
    "Verif.C72_slice",
    "Verif.C72_missing_part",
    "Verif.C72_collections",
    "Verif.C72_dict",
    "Verif.C72_tails"
   ],
   "note": ""
  },
  {
   "property": "C73",
   "status": "proved",
   "theorems": [
    "Verif.C73_inplace",
    "Verif.C73_as_plain",
    "Verif.C73_unbound"
   ],
   "note": "The right side is evaluated before the variable is read."
  },
  {
   "property": "C74",
   "status": "proved",
   "theorems": [
    "Verif.C74_mention",
    "Verif.C74_call",
    "Verif.C74_no_body",
    "Verif.C74_keyword_body",
    "Verif.C74_reserved"
   ],
   "note": "Keywords self and body_string are rejected by Python itself (C74_reserved)."
  },
  {
   "property": "C75",
   "status": "proved",
   "theorems": [
    "Verif.C75_statement",
    "Verif.C75_named",
    "Verif.C75_missing",
    "Verif.C75_module_state"
   ],
   "note": ""
  },
  {
   "property": "C76",
   "status": "proved",
   "theorems": [
    "Verif.C76_assignment",
    "Verif.C76_unambiguous",
    "Verif.C76_tighter_first",
    "Verif.C76_tighter_second",
    "Verif.C76_same_level",
    "Verif.C76_parentheses"
   ],
   "note": "Written forms are specified in Spec/Written.lean, independently of the grammar. They leave out forms listed there that the grammar reads otherwise (e.g. x!=y without a blank), numbers that begin with a point, and raw strings of several lines (C117)."
  },
  {
   "property": "C77",
   "status": "proved",
   "theorems": [
    "Verif.C77_script",
    "Verif.C77_unambiguous"
   ],
   "note": "Written scripts are specified in Spec/Scripts.lean, independently of the grammar. Hypothesis MarksApart: the mark characters are not letters or digits of Unicode (true for the default marks)."
  },
  {
   "property": "C78",
   "status": "partial",
   "theorems": [
    "Verif.C78_if_partial",
    "Verif.C78_while_partial",
    "Verif.C78_first_operand",
    "Verif.C78_not_in_general"
   ],
   "note": "False in general (C78_not_in_general): \"if x != y:\" is read as \"if x\" with the verbatim text \"= y:\" (C78_first_operand, for every x and y); likewise with / | : after the first operand. Proved for all other expressions."
  },
  {
   "property": "C79",
   "status": "proved",
   "theorems": [
    "Verif.C79_page"
   ],
   "note": "End to end: loadScript, analyseDocument, translDocument and renderNode. Values of variables in texts are printed on one line (values of attributes may have newlines). Elements are HTML tags; expressions are variables (C84 has also fields, conditions, loops and assignments)."
  },
  {
   "property": "C80",
   "status": "proved",
   "theorems": [
    "Verif.C80_structure"
   ],
   "note": "Composition of C79 with the tokenizer of C06. Verbatim and markup texts have to be free of active markup; nothing is demanded of values in normal texts and attributes, except that those in texts are printed on one line."
  },
  {
   "property": "C81",
   "status": "proved",
   "theorems": [
    "Verif.C81_tree"
   ],
   "note": "The policy layer (Spec/Policy.lean): an invariant of memory kept by every operation of the evaluator and the translator. External code is any code that conforms to it (Honest); the invariant makes every node younger than the nodes in its body."
  },
  {
   "property": "C82",
   "status": "partial",
   "theorems": [
    "Verif.C82_balanced_partial",
    "Verif.C82_not_in_general"
   ],
   "note": "False in general (C82_not_in_general): the body of a hypertag called in an expression is not escaped, and may get to the document through a variable of the hypertag that is not cleared after its expansion. Proved for scripts without such calls (and without verbatim and markup lines that contain active markup), for tags of HTML and the null tag; custom tags are left out."
  },
  {
   "property": "C83",
   "status": "proved",
   "theorems": [
    "Verif.C83_wellmade",
    "Verif.C83_never_malformed",
    "Verif.C83_unanalysed",
    "Verif.C83_blocks"
   ],
   "note": "Hypothesis MarksApart: the mark characters are not letters or digits of Unicode (true for the default marks). Proved from a typing of the grammar: each rule is assigned the kinds of nodes it may derive, and setup of each node class is shown to map children of these kinds to the expected trees."
  },
  {
   "property": "C84",
   "status": "proved",
   "theorems": [
    "Verif.C84_template"
   ],
   "note": "End to end, as C79, which is a special case. Data are represented by Python objects (Spec/PyData.lean) whose truth, text and fields have no side effects, and iterators that do not disturb one another; lists are shorter than the bound on iterations in the model. Empty lines at the beginning of the body of a control block give one more empty line (Spec.opening), as in the code. Assignments of variables in scope are left out (cf. C55 - C58)."
  },
  {
   "property": "C85",
   "status": "proved",
   "theorems": [
    "Verif.C85_structure"
   ],
   "note": "Composition of C84 with the tokenizer of C06. Verbatim and markup texts have to be free of active markup whenever they are output."
  },
  {
   "property": "C86",
   "status": "proved",
   "theorems": [
    "Verif.C86_components"
   ],
   "note": "End to end, extends C84 by definitions at the top level (one per name, each with a new name) and uses with named arguments. The table of definitions is any one that has those of the script (C88_table gives one). A body is embedded at most once and not in loops: otherwise layout of shared nodes is wrong (examples in Props/Components.lean). A component has one line at least."
  },
  {
   "property": "C87",
   "status": "proved",
   "theorems": [
    "Verif.C87_structure"
   ],
   "note": "Composition of C86 with the tokenizer of C06. Verbatim and markup texts have to be free of active markup whenever they are output."
  },
  {
   "property": "C88",
   "status": "proved",
   "theorems": [
    "Verif.C88_positions",
    "Verif.C88_table"
   ],
   "note": "Justifies the identification of hypertag objects by positions in the model. By induction on derivations of the grammar (over-approximating the PEG) and on rewriting and setup; analysis by mutual induction."
  },
  {
   "property": "C89",
   "status": "proved",
   "theorems": [
    "Verif.C89_loads",
    "Verif.C89_first_fault",
    "Verif.C89_assertion"
   ],
   "note": "Both directions, for every parsed text (Spec/Faults.lean describes faulty nodes of the rewritten tree). Uses C83: setup never meets unexpected children. No script is known in which the clause for `block_expr` applies, since braces are read as a set there."
  },
  {
   "property": "C90",
   "status": "proved",
   "theorems": [
    "Verif.C90_accepted",
    "Verif.C90_first",
    "Verif.C90_places",
    "Verif.C90_errors"
   ],
   "note": "Both directions, with the exception that is raised. The specification has no contexts, slots or depths, only lists of symbols in scope and two flags. Clauses of a `for` block after the first one are not analysed by the code, so they are not checked in the specification either (a defect, see C56 and C59)."
  },
  {
   "property": "C91",
   "status": "proved",
   "theorems": [
    "Verif.C91_position",
    "Verif.C91_multiline",
    "Verif.C91_text"
   ],
   "note": "The position of a node is any interval of the encoded text; C66 relates nodes to it. For nodes of several lines (such as a definition inside of a control block) the column is wrong if the indentation of the first and the last line differ; the theorem states by how much. The line is that of the end, not of the beginning."
  },
  {
   "property": "C92",
   "status": "proved",
   "theorems": [
    "Verif.C92_variable",
    "Verif.C92_tag",
    "Verif.C92_only",
    "Verif.C92_accepted",
    "Verif.C92_registry"
   ],
   "note": "Python objects are opaque; keys of `__tags__` are strings; access to attributes of the module does not fail. Two keys `x` and `%x` of `__tags__` stand for the same symbol, this is excluded in C92_tag."
  },
  {
   "property": "C93",
   "status": "proved",
   "theorems": [
    "Verif.C93_meaning",
    "Verif.C93_unique",
    "Verif.C93_complete",
    "Verif.C93_once",
    "Verif.C93_ends",
    "Verif.C93_elsewhere",
    "Verif.C93_cycle"
   ],
   "note": "Translation of a script is modelled by its interaction with the runtime (requests for modules, then a result). `C93_cycle` holds for all projects; the other claims for paths that mean the same file for every importer, as relative imports are translated again for each request (C64_not_in_general). A recursion too deep (RecursionError in Python) is `none` in the model."
  },
  {
   "property": "C94",
   "status": "proved",
   "theorems": [
    "Verif.C94_accepted",
    "Verif.C94_received",
    "Verif.C94_typeError"
   ],
   "note": "C94_received for names without marks (as of Python variables; C62 has the other ones). The script is assumed to be parsed without an exception, which would come before the TypeError for __builtins__."
  },
  {
   "property": "C95",
   "status": "partial",
   "theorems": [
    "Verif.C95_template",
    "Verif.C95_missing",
    "Verif.C95_received",
    "Verif.C95_own_partial",
    "Verif.C95_shared",
    "Verif.C95_not_in_general"
   ],
   "note": "False in general (C95_not_in_general): `Template.render` adds the request, the CSRF token and the file to the dictionary of its caller; when the dictionary is used again, the next template is told to come from the file of the first one and receives the request and the token of the first one. Proved for renderings with separate dictionaries; the other claims in general."
  },
  {
   "property": "C96",
   "status": "partial",
   "theorems": [
    "Verif.C96_visible_partial",
    "Verif.C96_document_partial",
    "Verif.C96_value_partial",
    "Verif.C96_not_in_general"
   ],
   "note": "False in general (C96_not_in_general, end to end): inside of a tagged block, when the name exists in an outer namespace, the variable assigned in a branch of an if/try/while block is dropped by `reset` and not added again by `pushnew`, so the next sibling sees the outer one. Proved for all names that are new, or of the same namespace, or outside of tagged blocks. The clause about values is for `if` blocks, whose taken branch ends with the assignment. `else` of `for` is not analysed by the code (C53)."
  },
  {
   "property": "C97",
   "status": "partial",
   "theorems": [
    "Verif.C97_exported_partial",
    "Verif.C97_values",
    "Verif.C97_not_in_general"
   ],
   "note": "False in general (C97_not_in_general): a variable assigned on the top level that has the name of a global symbol (an argument of render(), a builtin) is not exported. The exact set is proved for scripts without `else` of `for`; the clause about values holds for all scripts."
  },
  {
   "property": "C98",
   "status": "proved",
   "theorems": [
    "Verif.C98_layout",
    "Verif.C98_append",
    "Verif.C98_line",
    "Verif.C98_null_tag",
    "Verif.C98_pass",
    "Verif.C98_inline_body"
   ],
   "note": "The content of texts is one line, as in C84. The small theorems (`C98_append`, `C98_line`, `C98_null_tag`, `C98_pass`, `C98_inline_body`) describe the text a template stands for, `C98_layout` says that the code renders it. Deviations from docs/index.md, in examples: `...` before a control block and `<` inside of one have no effect, and a block after an empty line and `...` begins on a new line but is not indented; the null tag before nested blocks keeps their indentation."
  },
  {
   "property": "C99",
   "status": "partial",
   "theorems": [
    "Verif.C99_relative_partial",
    "Verif.C99_python",
    "Verif.C99_beyond",
    "Verif.C99_not_in_general"
   ],
   "note": "False in general (C99_not_in_general): a script found by an absolute path through a Python package is told the path of its folder as the name of its package, so its relative imports of existing scripts are rejected with ImportErrorEx. Proved for scripts found by relative imports, to any depth: C99_relative_partial gives the place of the imported script as well, so that it can be applied again. Not covered: absolute paths found in the folder of the importer."
  },
  {
   "property": "C100",
   "status": "partial",
   "theorems": [
    "Verif.C100_variables_partial",
    "Verif.C100_independent_partial",
    "Verif.C100_function_partial",
    "Verif.C100_not_in_general"
   ],
   "note": "False in general (C100_not_in_general, and an example end to end): slots of local variables are never cleared, so a variable assigned only in some cases has the value of the expansion before. Proved for sets of hypertags each of which uses only its attributes, variables it has assigned before in any case (`Sure`, a definite-assignment judgement: both branches of `if`, nothing of loops and `try`), and variables outside that no hypertag assigns. Definitions nested in others, which use the variables of these, are not covered. Python code sees neither variables nor indentation (trusted base)."
  },
  {
   "property": "C101",
   "status": "proved",
   "theorems": [
    "Verif.C101_faults",
    "Verif.C101_analysis",
    "Verif.C101_document"
   ],
   "note": "The additional symbols come first in the dictionary of builtins and their names are valid symbols. The numbers of slots in the two documents are made to coincide: a slot is an object without order, and `first` only says which numbers are in use. Hypertags of other documents are assumed to have other slots. Arguments of render() that a script does not declare are covered by C59. Symbols that the script assigns count as mentioned: a builtin of the same name takes the variable away from the exports (C97)."
  },
  {
   "property": "C102",
   "status": "proved",
   "theorems": [
    "Verif.C102_analysis",
    "Verif.C102_definitions",
    "Verif.C102_document"
   ],
   "note": "On parsed scripts (trees), before analysis: that the text with other names is parsed to the tree with other names is not proved, except that examples run from the text. A renaming is a pair of injective functions, for variables and for tags, that keep the empty name. Attributes of hypertags keep their names, since callers use them as keywords, and so do the symbols that `import *` brings. The faults of imports mention the name in the module, which stays. C102_definitions: the definitions of the renamed script are the renamed definitions."
  },
  {
   "property": "C103",
   "status": "partial",
   "theorems": [
    "Verif.C103_pieces",
    "Verif.C103_cuts",
    "Verif.C103_ranges_partial",
    "Verif.C103_last_range",
    "Verif.C103_not_in_general"
   ],
   "note": "False as to the ranges (C103_not_in_general; C103_last_range: for every non-empty sequence the last `stop` is too small by one). Pieces and cuts are proved without restriction. The test is a pure function that does not raise."
  },
  {
   "property": "C104",
   "status": "proved",
   "theorems": [
    "Verif.C104_batch",
    "Verif.C104_partition",
    "Verif.C104_flatten",
    "Verif.C104_flatten_lists",
    "Verif.C104_duplicates"
   ],
   "note": "`flatten` of a string as the only argument, which gives its characters, is not modelled; nor are infinite iterables."
  },
  {
   "property": "C105",
   "status": "partial",
   "theorems": [
    "Verif.C105_dropext",
    "Verif.C105_dropexts",
    "Verif.C105_setext",
    "Verif.C105_dropexts_dropext",
    "Verif.C105_getext_partial",
    "Verif.C105_getext_setext",
    "Verif.C105_not_in_general",
    "Verif.C105_normdir"
   ],
   "note": "False in general (C105_not_in_general): for names such as `.profile` `setext` takes the whole name for the extension, and `getext` (`os.path.splitext`) does not. Proved if the name before the extension has a character other than a dot. POSIX separators. `normdir(\"\")` is the root."
  },
  {
   "property": "C106",
   "status": "proved",
   "theorems": [
    "Verif.C106_stacks",
    "Verif.C106_restore",
    "Verif.C106_del_breaks"
   ],
   "note": "`del log[key]` breaks the discipline (C106_del_breaks) and is not among the operations. Locks and output are not modelled."
  },
  {
   "property": "C107",
   "status": "proved",
   "theorems": [
    "Verif.C107_subdict",
    "Verif.C107_subdict_strict",
    "Verif.C107_setdefaults",
    "Verif.C107_splitkeys"
   ],
   "note": "The order of the entries of `subdict` depends on the loop (example)."
  },
  {
   "property": "C108",
   "status": "proved",
   "theorems": [
    "Verif.C108_operators",
    "Verif.C108_weaker_orders_fail"
   ],
   "note": "C108_weaker_orders_fail: for a partial order `==` is not transitive."
  },
  {
   "property": "C109",
   "status": "proved",
   "theorems": [
    "Verif.C109_together",
    "Verif.C109_statements",
    "Verif.C109_else_taken"
   ],
   "note": "Up to the statements that analysis and translation start from (C109_statements). The conditions on the letter `r` and on two-word operators are sufficient, not necessary; that on `else` is needed also for tags whose names begin so (C109_else_taken)."
  },
  {
   "property": "C110",
   "status": "proved",
   "theorems": [
    "Verif.C110_dom",
    "Verif.C110_node",
    "Verif.C110_sequence",
    "Verif.C110_no_sequence",
    "Verif.C110_wrong_element",
    "Verif.C110_covered",
    "Verif.C110_texts"
   ],
   "note": "Values that the translator does not look into (lists, generators) are listed by Python code outside of the model (`toList`, `flatten`; C34 is about `DOM._flatten` itself). Setting the indentation may fail by the assertion of `relative_indent`; it does not for texts (C110_texts) and in scripts as in C79, C86."
  },
  {
   "property": "C111",
   "status": "proved",
   "theorems": [
    "Verif.C111_either",
    "Verif.C111_false",
    "Verif.C111_true",
    "Verif.C111_blocks"
   ],
   "note": "Values of Python code are tested by their own `__bool__`, which is outside of the model and may have effects or fail (C43 has the hypothesis that testing twice is the same as testing once; C111 needs none)."
  },
  {
   "property": "C112",
   "status": "proved",
   "theorems": [
    "Verif.C112_first_fault",
    "Verif.C112_document",
    "Verif.C112_numbering",
    "Verif.C112_renumbered",
    "Verif.C112_builtin_shared"
   ],
   "note": "At the level of statements, after parsing: that two texts put together have the statements of both is C109. Conditions are sufficient, not necessary; C112_builtin_shared shows that the one on builtins cannot be dropped. Rendering of the second script alone is stated with builtins in slots of their own (`Spec.inTurn`), and C112_numbering, C112_renumbered say that their numbers do not matter."
  },
  {
   "property": "C113",
   "status": "proved",
   "theorems": [
    "Verif.C113_one_analysed",
    "Verif.C113_one_translated",
    "Verif.C113_left_out",
    "Verif.C113_analysed",
    "Verif.C113_hypertags",
    "Verif.C113_translated"
   ],
   "note": "At the level of statements, after parsing (that a comment is parsed as one, whatever is indented below it, is part of C77). Inline comments at the ends of lines leave nothing in the statements. Positions of definitions, which are identities of hypertags, are taken as they are."
  },
  {
   "property": "C114",
   "status": "proved",
   "theorems": [
    "Verif.C114_document"
   ],
   "note": "At the level of statements, after parsing, and for definitions among the blocks of a document. That the definition has no fault is a hypothesis: unused definitions are checked, too. The table of hypertags of the script without the definition is given by the theorem (bodies have other slots); other documents have lower slots, and no value is in slots that were not given so far."
  },
  {
   "property": "C115",
   "status": "proved",
   "theorems": [
    "Verif.C115_larger",
    "Verif.C115_one",
    "Verif.C115_noticed",
    "Verif.C115_parts",
    "Verif.C115_endless"
   ],
   "note": "A too deep recursion is a timeout in the model; Python raises RecursionError at its own limit, which a try block catches. Scripts that come near this limit are outside of the model."
  },
  {
   "property": "C116",
   "status": "proved",
   "theorems": [
    "Verif.C116_encoded",
    "Verif.C116_loaded",
    "Verif.C116_located",
    "Verif.C116_crlf_lines",
    "Verif.C116_crlf",
    "Verif.C116_chosen"
   ],
   "note": "`Spec.parsesAlone` is the test of `_locate_error`. An IndentationError within `_locate_error` counts as a failure to parse."
  },
  {
   "property": "C117",
   "status": "partial",
   "theorems": [
    "Verif.C117_encoded",
    "Verif.C117_parsed",
    "Verif.C117_located",
    "Verif.C117_loaded_partial",
    "Verif.C117_not_in_general"
   ],
   "note": "Partial: equality of statements holds if raw strings are closed on their lines. A raw string of several lines contains the marks instead of indentation (`C117_not_in_general`). Marks are assumed to be no letters, digits, characters of XML names or whitespace: `get_parser` does not check this, but takes the first free codes from U+2768 on, and reaches such a code only in scripts that contain most of the symbols before it."
  },
  {
   "property": "C118",
   "status": "proved",
   "theorems": [
    "Verif.C118_document",
    "Verif.C118_script"
   ],
   "note": "`Spec.straightAll` is a condition on the statements that the script is loaded to, and can be decided (examples). `Outside.Calm`: Python code returns, makes no iterator longer, creates no cycles of nodes, and does not call hypertags (it gets none, as they are used as tags only). Hypertags imported from other scripts are excluded."
  },
  {
   "property": "C119",
   "status": "proved",
   "theorems": [
    "Verif.C119_loaded",
    "Verif.C119_analysed",
    "Verif.C119_translated",
    "Verif.C119_rendered"
   ],
   "note": ""
  },
  {
   "property": "C120",
   "status": "proved",
   "theorems": [
    "Verif.C120_loaded",
    "Verif.C120_plain",
    "Verif.C120_analysed",
    "Verif.C120_translated",
    "Verif.C120_rendered"
   ],
   "note": ""
  },
  {
   "property": "C121",
   "status": "proved",
   "theorems": [
    "Verif.C121_registered",
    "Verif.C121_symbols",
    "Verif.C121_builtins",
    "Verif.C121_runtime",
    "Verif.C121_names",
    "Verif.C121_void",
    "Verif.C121_elements",
    "Verif.C121_page"
   ],
   "note": "`str.lower` and `str.upper` are modelled for ASCII letters. Comparisons over the two lists of names are decided, as they are constants of the code; the rest holds for all lists. `frame` and `basefont`, which HTML parsers take for void elements, too, are not void in the library (example)."
  },
  {
   "property": "C122",
   "status": "proved",
   "theorems": [
    "Verif.C122_above",
    "Verif.C122_between",
    "Verif.C122_below",
    "Verif.C122_same_below",
    "Verif.C122_same_above",
    "Verif.C122_same_between"
   ],
   "note": "Comments on the top level; in nested blocks, C113 has the same for the statements, not for the text. The text of the comment is any sequence of characters but the marks of indentation, which are chosen apart from all characters of the script. A comment between the clauses of a statement is an error (example): it ends the statement, and `else` begins no block."
  },
  {
   "property": "C123",
   "status": "proved",
   "theorems": [
    "Verif.C123_rendered",
    "Verif.C123_all_rendered",
    "Verif.C123_raises",
    "Verif.C123_all_raise",
    "Verif.C123_empty",
    "Verif.C123_keyword",
    "Verif.C123_self"
   ],
   "note": "The text of the body is not escaped, as `Tag.__call__` says; escaping is left to the text block where the call is written (C01, C82). For tags other than the standard ones the converse on exceptions may fail: a tag may expand without rendering its body."
  },
  {
   "property": "C124",
   "status": "proved",
   "theorems": [
    "Verif.C124_contents",
    "Verif.C124_import",
    "Verif.C124_importable",
    "Verif.C124_names_matter"
   ],
   "note": "Django itself is not modelled: its two dictionaries of filters are arbitrary, `django.setup()` succeeds and does not change them. That the module cannot be imported in a running site, where settings are configured, is how the code behaves (`C124_importable`); a comment in the code says that default settings are always used."
  },
  {
   "property": "C125",
   "status": "proved",
   "theorems": [
    "Verif.C125_document"
   ],
   "note": "For other expressions the evaluation may raise an exception or change something. A context block below the line is excluded, as it is allowed only if nothing but comments and other context blocks is above."
  },
  {
   "property": "C126",
   "status": "proved",
   "theorems": [
    "Verif.C126_document"
   ],
   "note": "Modules are given by their symbols and states (as for C29, C64); side effects of Python code that runs when a python module is loaded for the first time are not part of the claim. A context block below an import from a module is excluded, as for C125; below another context block it is not."
  },
  {
   "property": "C127",
   "status": "proved",
   "theorems": [
    "Verif.C127_document",
    "Verif.C127_while"
   ],
   "note": "`C127_while`: for every bound on the number of rounds but 0, as the model counts the first test as a round. Numbers as conditions are not covered, as their truth is an operation of Python. Definitions in a control block are rejected anyway, except in clauses that are not analysed (see C90)."
  },
  {
   "property": "C128",
   "status": "proved",
   "theorems": [
    "Verif.C128_document",
    "Verif.C128_order"
   ],
   "note": "For the loaded statements: a definition keeps its identity, which in the text is its position. The blocks are free of faults. Context blocks below are excluded, as for C125."
  }
 ]
}