{"id": "C01", "title": "Plain-text escaping leaves no active markup", "statement": "Whatever string is put through the HTML runtime's escape function, the output contains no '<' and no '>', and every '&' in it begins one of the three entities &amp; &lt; &gt;.", "quantifier": "every Unicode string", "why_tests_cant": "The set of strings is infinite and adversarial (user data); a test only shows a few payloads are neutralised.", "anchors": ["src/hypertag/std/html.py:html_escape", "src/hypertag/core/run_html.py:HyperHTML.escape"]}
{"id": "C02", "title": "Plain-text escaping is lossless", "statement": "Decoding the three entities in the output of the HTML escape function gives back exactly the original string; hence no two different texts are rendered to the same escaped text, also when the text already contains entity-looking substrings such as '&amp;lt;'.", "quantifier": "every Unicode string (and every pair of strings)", "why_tests_cant": "Order-of-replacement bugs (escaping & last) only show up on particular combinations; injectivity ranges over pairs of strings.", "anchors": ["src/hypertag/std/html.py:html_escape"]}
{"id": "C03", "title": "Attribute values cannot break out of their quotes", "statement": "For every attribute value the text produced for it in a start tag is q+inner+q where q is a single or double quote character that does not occur in inner, and inner contains no '<', no '>', no newline, tab or carriage return, and no '&' other than the start of an entity produced by escaping.", "quantifier": "every string value", "why_tests_cant": "An attacker chooses the value; both quote characters, entities and control characters interact.", "anchors": ["src/hypertag/core/tag.py:Markup._render_attr", "xml.sax.saxutils.quoteattr (stdlib)"]}
{"id": "C04", "title": "Attribute values round-trip through markup", "statement": "A reader that strips the quotes and decodes entities gets back exactly the attribute value given in the script.", "quantifier": "every string value", "why_tests_cant": "Same infinite domain; escape order and quote selection interact.", "anchors": ["src/hypertag/core/tag.py:Markup._render_attr", "xml.sax.saxutils.quoteattr (stdlib)"]}
{"id": "C05", "title": "A start tag parses back to the given name and attributes", "statement": "An independent tokenizer of start tags, applied to the start tag that a markup tag emits, recovers the tag name and exactly the attribute list given in the script, in order: True-valued attributes as bare names, False-valued attributes absent, other attributes with their string values.", "quantifier": "every tag name and attribute names without whitespace and markup characters, every number of attributes, every mix of boolean and string values", "why_tests_cant": "Attribute lists are unbounded and values arbitrary; injection through one value would shift all later attributes.", "anchors": ["src/hypertag/core/tag.py:Markup._expand", "src/hypertag/core/tag.py:Markup._render_attr"]}
{"id": "C06", "title": "Rendered markup has exactly the structure of the DOM", "statement": "For every DOM tree of void and non-void markup elements, null nodes and escaped texts with arbitrary indentation and outline flags, an independent tokenizer run on the rendered document yields exactly the sequence of start, end and void tags (with their attributes) of a depth-first traversal of the tree: neither text, attribute values nor indentation can add, drop or reorder an element.", "quantifier": "every DOM tree of any depth and width with arbitrary texts, attribute values, indentations", "why_tests_cant": "Trees and payloads are unbounded.", "anchors": ["src/hypertag/core/dom.py:DOM.render", "src/hypertag/core/dom.py:DOM.Node.render", "src/hypertag/core/tag.py:Markup.expand"]}
{"id": "C07", "title": "Void elements never carry a body", "statement": "A void markup element renders successfully if and only if its body renders to the empty string; otherwise VoidTagEx is raised and no document is produced. Positional attributes on a markup tag always raise.", "quantifier": "every body DOM, every attribute list", "why_tests_cant": "Body can be any DOM, including nested nodes that render to empty text.", "anchors": ["src/hypertag/core/tag.py:Markup.expand", "src/hypertag/core/tag.py:Markup._expand"]}
{"id": "C08", "title": "Indenting a text shifts exactly its non-empty lines after the first", "statement": "Indenting a multi-line text by a string keeps the number of lines; the first line and all empty lines are unchanged, every other line is prefixed with the indentation string and otherwise unchanged.", "quantifier": "every text and every indentation string without backslashes (the code hands it to re.sub as a template)", "why_tests_cant": "Line structure is unbounded; edge cases are runs of newlines and trailing newlines.", "anchors": ["src/hypertag/core/dom.py:add_indent"]}
{"id": "C09", "title": "Nested indentation accumulates", "statement": "Indenting by a and then by b equals indenting once by b+a, so that in a rendered document each line is indented by the concatenation of the indentations of all enclosing nodes.", "quantifier": "every text, all indentation strings without newlines and backslashes, every nesting depth", "why_tests_cant": "Depth and texts are unbounded.", "anchors": ["src/hypertag/core/dom.py:add_indent", "src/hypertag/core/dom.py:DOM.Node.render"]}
{"id": "C10", "title": "Detected indentation is the longest common one", "statement": "The indentation detected in a text is a whitespace string that prefixes every non-blank line, and every whitespace string with this property is no longer than it; for a text with no non-blank line it is empty.", "quantifier": "every text", "why_tests_cant": "Ranges over all texts and all candidate prefixes.", "anchors": ["src/hypertag/core/dom.py:get_indent"]}
{"id": "C11", "title": "Removing common indentation keeps the lines and is idempotent", "statement": "Removing the common indentation of a text keeps the number of lines and shortens each line only by exactly that common indentation (blank lines shorter than it are kept); after removal the common indentation is empty and removing again changes nothing.", "quantifier": "every text", "why_tests_cant": "Ranges over all texts; interaction with blank lines.", "anchors": ["src/hypertag/core/dom.py:del_indent", "src/hypertag/core/dom.py:get_indent"]}
{"id": "C12", "title": "Indent then dedent gives the text back", "statement": "If the first line of a text is empty, removing an indentation string right after indenting by it restores the original text.", "quantifier": "every text starting with a newline or empty, every whitespace indentation string", "why_tests_cant": "All texts.", "anchors": ["src/hypertag/core/dom.py:add_indent", "src/hypertag/core/dom.py:del_indent"]}
{"id": "C13", "title": "Indentation encoding never fails internally", "statement": "Encoding of a script's indentation either returns an encoded script or raises IndentationError; its internal assertions can never fail.", "quantifier": "every script text", "why_tests_cant": "An assertion failure could depend on any combination of blank lines, dedents and line endings.", "anchors": ["src/hypertag/core/ast.py:Grammar.preprocess"]}
{"id": "C14", "title": "INDENT/DEDENT marks are well nested and typed", "statement": "In the encoded script, INDENT and DEDENT marks form a balanced bracket sequence in which every DEDENT has the same kind (space/tab) as the INDENT it closes, and at the end of the script nothing is left open.", "quantifier": "every script text that contains no mark characters", "why_tests_cant": "Nesting depth is unbounded.", "anchors": ["src/hypertag/core/ast.py:Grammar.preprocess"]}
{"id": "C15", "title": "Indentation encoding is lossless", "statement": "From the encoded script alone one can recover every line of the original script exactly, up to trailing whitespace (with indentation made of spaces and tabs).", "quantifier": "every script indented with spaces and tabs that contains no mark characters", "why_tests_cant": "Ranges over all scripts.", "anchors": ["src/hypertag/core/ast.py:Grammar.preprocess"]}
{"id": "C16", "title": "Line numbers survive indentation encoding", "statement": "Line k of the script becomes line k+1 of the encoded script (with marks removed and surrounding whitespace stripped), so that the reported line number (encoded line minus one) is the line number in the author's file.", "quantifier": "every script, every line", "why_tests_cant": "Blank lines are moved around dedents; off-by-one errors depend on their layout.", "anchors": ["src/hypertag/core/ast.py:Grammar.preprocess", "src/hypertag/core/errors.py:HError.make_msg"]}
{"id": "C17", "title": "IndentationError exactly for incompatible indentation", "statement": "Encoding raises IndentationError if and only if some non-blank line has an indentation string that is neither a prefix nor an extension of the indentation of the closest preceding non-blank line (the empty one at the start), and the number reported is that of the first such line.", "quantifier": "every script text", "why_tests_cant": "All scripts; mixed tabs/spaces.", "anchors": ["src/hypertag/core/ast.py:Grammar.preprocess"]}
{"id": "C18", "title": "Mark characters never collide with the script", "statement": "The four characters chosen to encode indentation are pairwise different and none of them occurs in the script.", "quantifier": "every script text", "why_tests_cant": "A collision would silently corrupt structure; adversarial scripts can contain any finite set of the candidate characters.", "anchors": ["src/hypertag/core/ast.py:Grammar.get_parser"]}
{"id": "C19", "title": "Syntax-error location is exact", "statement": "Given that truncating a script after a good line keeps it parseable and after a bad line keeps it unparseable, the binary search reports exactly the first line whose inclusion makes the script unparseable, and never accesses a line out of range.", "quantifier": "every number of lines and every monotone parseability predicate", "why_tests_cant": "All script lengths and error positions.", "anchors": ["src/hypertag/core/ast.py:HypertagAST._locate_error"]}
{"id": "C20", "title": "Escape sequences in strings", "statement": "Decoding of backslash escapes leaves text without backslashes unchanged, and decodes the escaped form of any string (backslash doubled, control characters and quotes written as \\\\n \\\\t \\\\r \\\\a \\\\b \\\\f \\\\v \\\\' or \\\\xNN \\\\uNNNN \\\\UNNNNNNNN) back to that string.", "quantifier": "every string", "why_tests_cant": "All strings; ambiguity between adjacent escapes and digits.", "anchors": ["src/hypertag/core/ast.py:decode_escapes", "src/hypertag/core/ast.py:NODES.xtext_quot"]}
{"id": "C21", "title": "merge normalises whitespace", "statement": "merge(text) equals the sequence of maximal non-whitespace runs of the text joined by single spaces; it is idempotent.", "quantifier": "every text", "why_tests_cant": "All texts.", "anchors": ["src/hypertag/std/builtins.py:merge"]}
{"id": "C22", "title": "unique keeps first occurrences", "statement": "unique(text) returns the lines of the text in original order with each distinct (by default: stripped, non-empty) line occurring exactly once, at the place of its first occurrence.", "quantifier": "every text, both strip modes", "why_tests_cant": "All texts.", "anchors": ["src/hypertag/std/builtins.py:unique", "src/hypertag/nifty/util.py:unique"]}
{"id": "C23", "title": "dedent removes all line indentation and nothing else", "statement": "dedent(text) drops exactly the leading whitespace of each line together with whitespace-only lines; all other characters, in particular the contents of each remaining line, stay in order.", "quantifier": "every text", "why_tests_cant": "All texts.", "anchors": ["src/hypertag/std/builtins.py:dedent"]}
{"id": "C24", "title": "inline removes newlines reversibly", "statement": "inline(text) contains no newline, and replacing &#10; by newline restores a text that did not contain &#10;; indenting an inlined text never changes it.", "quantifier": "every text, every indentation without backslashes", "why_tests_cant": "All texts.", "anchors": ["src/hypertag/std/builtins.py:inline", "src/hypertag/core/dom.py:add_indent"]}
{"id": "C25", "title": "cycle repeats sequences in parallel", "statement": "The i-th tuple produced by cycle(s1,...,sn) consists of s_j[i mod len(s_j)] for each j; with stop='first' exactly len(s1) tuples are produced and with stop='longest' exactly the length of the longest, provided no sequence is empty.", "quantifier": "every number of sequences, all lengths, every index", "why_tests_cant": "All lengths and indices.", "anchors": ["src/hypertag/std/builtins.py:cycle"]}
{"id": "C26", "title": "changes flags exactly the changes", "statement": "changes(seq) yields every element of seq in order, the k-th one paired with True iff it differs from the (k-1)-th; the first is paired with the given flag.", "quantifier": "every sequence", "why_tests_cant": "All sequences.", "anchors": ["src/hypertag/std/builtins.py:changes"]}
{"id": "C27", "title": "crop respects the length limit", "statement": "crop(s, length, end, ...) returns s itself if it is not longer than length+leeway; otherwise it returns a prefix of s followed by end, no longer than length, cut either at a space (unless that drops more than maxdrop characters) or exactly at length-len(end).", "quantifier": "every string and all parameter values satisfying the documented preconditions", "why_tests_cant": "All strings and parameters.", "anchors": ["src/hypertag/std/builtins.py:crop"]}
{"id": "C28", "title": "Relative import paths are resolved component-wise", "statement": "Joining a relative path with k leading dots to a base path gives the base with its last k-1 components removed followed by the components of the path; it raises ImportError exactly when fewer than k components are available.", "quantifier": "every base path, every path, every separator", "why_tests_cant": "All paths.", "anchors": ["src/hypertag/core/runtime.py:join_path"]}
{"id": "C29", "title": "A loader reads each module at most once", "statement": "Over any sequence of load requests, a generic loader (used for Python modules) never reads a canonical location again after reading it without an exception, and always returns the module object obtained at that read.", "quantifier": "every history of load calls", "why_tests_cant": "Histories are unbounded.", "anchors": ["src/hypertag/core/runtime.py:Loader.load", "src/hypertag/core/runtime.py:PyLoader"]}
{"id": "C30", "title": "Import uses the first loader that finds the module", "statement": "import_module returns the module of the first loader in the list that finds it, never consults later loaders, and raises ModuleNotFound exactly when all loaders fail.", "quantifier": "every list of loaders and every outcome of theirs", "why_tests_cant": "All loader lists.", "anchors": ["src/hypertag/core/runtime.py:Runtime.import_module"]}
{"id": "C31", "title": "Built-in symbols are isolated from scripts", "statement": "Provided the built-in modules can be imported when first needed, every script starts with the same built-ins, in which later modules of the list override earlier ones; whatever a translation adds to its set of built-in symbols is not visible to later translations.", "quantifier": "every history of translations", "why_tests_cant": "Histories of calls.", "anchors": ["src/hypertag/core/runtime.py:Runtime.import_builtins", "src/hypertag/core/runtime.py:Runtime.translate"]}
{"id": "C32", "title": "Symbol table behaves as a stack of scopes", "statement": "After any sequence of push, pop and reset operations, looking a name up gives the value of the latest still-present push of this name, a name is present iff such a push exists, and pop returns the latest push.", "quantifier": "every history of operations", "why_tests_cant": "Histories are unbounded; shadowing chains of any length.", "anchors": ["src/hypertag/core/structs.py:MultiDict"]}
{"id": "C33", "title": "Leaving a scope restores the symbol table exactly", "statement": "Taking the position, performing any pushes, pops above the position and nested resets, and then resetting to the position restores every lookup to what it was.", "quantifier": "every history of operations", "why_tests_cant": "Histories.", "anchors": ["src/hypertag/core/structs.py:MultiDict.reset", "src/hypertag/core/structs.py:MultiDict.position"]}
{"id": "C34", "title": "DOM construction flattens", "statement": "Building a DOM from arbitrarily nested lists, DOMs and Nones yields the contained nodes in left-to-right order; it raises TypeError iff some leaf is neither a node nor None.", "quantifier": "every nesting", "why_tests_cant": "Unbounded nesting.", "anchors": ["src/hypertag/core/dom.py:DOM._flatten"]}
{"id": "C35", "title": "walk visits every node exactly once in the documented order", "statement": "Walking a DOM yields each node of the trees exactly once; in preorder every node comes before all its descendants, in postorder after them, siblings in order; with a skip predicate exactly the nodes none of whose ancestors-or-self satisfy it are yielded.", "quantifier": "every DOM tree, every skip predicate", "why_tests_cant": "Unbounded trees.", "anchors": ["src/hypertag/core/dom.py:DOM.walk", "src/hypertag/core/dom.py:DOM.Node.walk"]}
{"id": "C36", "title": "select returns exactly the matching nodes", "statement": "select(tag, attributes...) returns exactly the nodes (in walk order) whose tag name or tag equals the given one and which carry all the given attributes with the given values.", "quantifier": "every DOM tree and every constraint", "why_tests_cant": "Unbounded trees and constraints.", "anchors": ["src/hypertag/core/dom.py:DOM.select", "src/hypertag/core/dom.py:DOM._test"]}
{"id": "C37", "title": "skip removes exactly the matching subtrees", "statement": "skip(...) returns a DOM equal to the original with every subtree rooted at a matching node removed, all the remaining nodes keeping their order and parents.", "quantifier": "every DOM tree and every constraint", "why_tests_cant": "Unbounded trees.", "anchors": ["src/hypertag/core/dom.py:DOM.skip", "src/hypertag/core/dom.py:DOM.alter", "src/hypertag/core/dom.py:DOM.copy"]}
{"id": "C38", "title": "skip leaves the original untouched", "statement": "After skip(...) the original DOM, including every node object reachable from it, is unchanged, and no node object of the result is an object of the original.", "quantifier": "every heap of node objects, every constraint", "why_tests_cant": "Aliasing over arbitrary heaps.", "anchors": ["src/hypertag/core/dom.py:DOM.skip", "src/hypertag/core/dom.py:DOM.copy", "src/hypertag/core/dom.py:DOM.alter"]}
{"id": "C39", "title": "Slicing a DOM", "statement": "dom[a:b] is a DOM of the selected nodes (documented as DOM(dom.nodes[a:b])).", "quantifier": "every DOM and slice", "why_tests_cant": "All DOMs/slices.", "anchors": ["src/hypertag/core/dom.py:DOM.__getitem__"]}
{"id": "C40", "title": "alter applies the transform in the documented order", "statement": "With order='preorder' transform is applied to a list of nodes before descending into the children, with 'postorder' after.", "quantifier": "every DOM and transform", "why_tests_cant": "Unbounded trees, arbitrary transforms.", "anchors": ["src/hypertag/core/dom.py:DOM.alter"]}
{"id": "C41", "title": "tree() draws one line per node at its depth", "statement": "The text drawing of a DOM has exactly one line per node in preorder, indented by step repeated as many times as the node is deep; the line shows the name of the tag (or the class) and the attributes of the node.", "quantifier": "every DOM tree", "why_tests_cant": "Unbounded trees.", "anchors": ["src/hypertag/core/dom.py:DOM.tree", "src/hypertag/core/dom.py:DOM.Node.tree"]}
{"id": "C42", "title": "Only one leading newline is dropped from a document", "statement": "Rendering a document root equals rendering its body minus one leading newline if there is one; nothing else is removed.", "quantifier": "every document DOM", "why_tests_cant": "All DOMs.", "anchors": ["src/hypertag/core/dom.py:DOM.Root.render"]}
{"id": "C43", "title": "Logical operators are lazy and return operands", "statement": "'a and b and ...' evaluates operands left to right, stops at the first false one and returns it, otherwise returns the last; 'or' dually; no operand after the deciding one is evaluated (no side effects, no exceptions).", "quantifier": "every chain length, every behaviour of operands (values, exceptions, side effects), for values whose truth test gives the same result when repeated at once", "why_tests_cant": "Operands are arbitrary Python code.", "anchors": ["src/hypertag/core/ast.py:NODES.xand_test", "src/hypertag/core/ast.py:NODES.xor_test"]}
{"id": "C44", "title": "Conditional expression evaluates one branch", "statement": "'x if t else y' evaluates t first and then exactly one of x, y; without else a false test gives the empty string.", "quantifier": "every behaviour of the three operands", "why_tests_cant": "Arbitrary operands.", "anchors": ["src/hypertag/core/ast.py:NODES.xifelse_test"]}
{"id": "C45", "title": "Optional qualifier suppresses failures", "statement": "X? gives X if X evaluates to a true value, otherwise '' - when X is false or raises any ordinary exception; BaseExceptions pass.", "quantifier": "every behaviour of X", "why_tests_cant": "Arbitrary operand behaviour, including exceptions.", "anchors": ["src/hypertag/core/ast.py:NODES.expression.evaluate_with_qualifier"]}
{"id": "C46", "title": "Obligatory qualifier rejects false values", "statement": "X! gives X if it is true; raises FalseValueEx iff X evaluates normally to a false value; passes exceptions of X through.", "quantifier": "every behaviour of X", "why_tests_cant": "Arbitrary operand behaviour.", "anchors": ["src/hypertag/core/ast.py:NODES.expression.evaluate_with_qualifier"]}
{"id": "C47", "title": "Pipeline is function application", "statement": "x : f1(a..) : f2 : ... gives the same result as f2(f1(x, a..)), with x passed as first positional argument before the listed ones.", "quantifier": "every chain length, all argument lists, all callables", "why_tests_cant": "Arbitrary callables and chain lengths.", "anchors": ["src/hypertag/core/ast.py:NODES.xpipeline", "src/hypertag/core/ast.py:NODES.xpartial_call", "src/hypertag/core/ast.py:partial"]}
{"id": "C48", "title": "Operator chains associate to the left", "statement": "A chain x1 op1 x2 op2 x3 ... of operators of equal priority evaluates operands left to right exactly once and combines them as ((x1 op1 x2) op2 x3)...; the first failing step's exception is the result.", "quantifier": "every chain length and operator behaviour", "why_tests_cant": "Unbounded chains, arbitrary operators.", "anchors": ["src/hypertag/core/ast.py:NODES.chain_expression", "src/hypertag/core/ast.py:NODES.simple_chain_expression"]}
{"id": "C49", "title": "Unpacking assignment", "statement": "Assigning to a target list of n>=2 targets stores the n items to the n targets, recursively, iff the value is iterable and yields exactly n items (of suitable shapes); too many or too few items raise ValueError and a non-iterable raises.", "quantifier": "every nested target shape and every value", "why_tests_cant": "Unbounded nesting.", "anchors": ["src/hypertag/core/ast.py:NODES.xtargets.assign"]}
{"id": "C50", "title": "if executes exactly the first true branch", "statement": "An if/elif/else block translates to the body of the first clause whose test is true, later tests are not evaluated; if none is true, to the else body or nothing.", "quantifier": "every number of clauses, every behaviour of tests and bodies", "why_tests_cant": "Arbitrary expressions with side effects.", "anchors": ["src/hypertag/core/ast.py:NODES.xblock_if"]}
{"id": "C51", "title": "for concatenates one body per element", "statement": "A for block evaluates the sequence once and outputs the translations of its body for each element in order, with the loop variables bound to the element, loop variables keep the last element afterwards.", "quantifier": "every sequence, every body", "why_tests_cant": "Unbounded loops.", "anchors": ["src/hypertag/core/ast.py:NODES.xblock_for"]}
{"id": "C52", "title": "while repeats until the test fails", "statement": "A while block outputs the concatenated translations of its body as long as the test is true; the test is false on normal termination.", "quantifier": "every test and body", "why_tests_cant": "Unbounded iteration.", "anchors": ["src/hypertag/core/ast.py:NODES.xblock_while"]}
{"id": "C53", "title": "try never propagates ordinary exceptions", "statement": "A try/else... block outputs the translation of the first branch that does not raise and nothing if all raise; it itself never raises an ordinary exception.", "quantifier": "every branch behaviour", "why_tests_cant": "Arbitrary failures inside branches.", "anchors": ["src/hypertag/core/ast.py:NODES.xblock_try"]}
{"id": "C54", "title": "Indentation is restored after every block", "statement": "After translation of any block, whether it succeeds or is abandoned by an exception caught by an enclosing try, the current indentation is the same as before the block.", "quantifier": "every block tree and every exception point", "why_tests_cant": "Exceptions at arbitrary depth.", "anchors": ["src/hypertag/core/ast.py:NODES.body.translate", "src/hypertag/core/ast.py:NODES.block_text.render", "src/hypertag/core/structs.py:State"]}
{"id": "C55", "title": "Tagged blocks do not leak variables", "statement": "No assignment inside the body of a tagged block changes the value that blocks after it read from a variable of the same name defined outside.", "quantifier": "every body, every nesting", "why_tests_cant": "Unbounded programs.", "anchors": ["src/hypertag/core/ast.py:NODES.xblock_struct.analyse", "src/hypertag/core/ast.py:NODES.variable.analyse"]}
{"id": "C56", "title": "Undefined names are detected before translation", "statement": "A script that uses a variable or tag with no definition in scope is rejected by analysis, before any expression is evaluated; a script accepted by analysis never fails later with an unresolved name - only with 'referenced before assignment'.", "quantifier": "every script AST", "why_tests_cant": "Unbounded programs.", "anchors": ["src/hypertag/core/ast.py:NODES.variable.analyse", "src/hypertag/core/ast.py:NODES.xtag_expand.analyse"]}
{"id": "C57", "title": "Hypertag attributes bind like Python call arguments", "statement": "Positional attributes bind to formal attributes in order, keyword ones by name, missing ones get defaults; too many positionals, unknown keywords, double binding and missing required ones raise TypeError - exactly as in a Python call.", "quantifier": "every formal list and every actual attribute list", "why_tests_cant": "All combinations.", "anchors": ["src/hypertag/core/ast.py:NODES.xblock_def._append_attrs"]}
{"id": "C58", "title": "Repeated attributes are joined with spaces", "statement": "When a keyword attribute is given several times on a tag, the tag receives one attribute, at the position of its first occurrence, whose value is all values joined by single spaces in order.", "quantifier": "every attribute list", "why_tests_cant": "All lists.", "anchors": ["src/hypertag/core/ast.py:NODES.xtag_expand._eval_attrs"]}
{"id": "C59", "title": "Context blocks are confined to the prolog and see only declared symbols", "statement": "A context block anywhere after a non-comment, non-context block is rejected; context symbols not declared are invisible; a declared symbol missing in the context raises ImportError.", "quantifier": "every block sequence and every context", "why_tests_cant": "All sequences.", "anchors": ["src/hypertag/core/ast.py:NODES.xblock_context", "src/hypertag/core/ast.py:NODES.xcntx_import", "src/hypertag/core/ast.py:NODES.xblock.analyse"]}
{"id": "C60", "title": "Wildcard import brings exactly the public symbols", "statement": "'from m import *' defines exactly the symbols of the module whose name does not start with an underscore, each bound to the module's value.", "quantifier": "every module symbol table", "why_tests_cant": "All tables.", "anchors": ["src/hypertag/core/ast.py:NODES.xwild_import"]}
{"id": "C61", "title": "Text blocks keep relative indentation", "statement": "Rendering a text block removes the block's own indentation and keeps the relative indentation of its lines.", "quantifier": "every list of lines and every marker column", "why_tests_cant": "All texts.", "anchors": ["src/hypertag/core/ast.py:NODES.block_text.render"]}
{"id": "C62", "title": "make_context marks unmarked names", "statement": "Context symbols passed by the caller are available exactly under '$name' for variables and '%name' for tags; a name that already carries a mark is kept.", "quantifier": "every pair of dicts", "why_tests_cant": "All dicts.", "anchors": ["src/hypertag/core/ast.py:HypertagAST.make_context"]}
{"id": "C63", "title": "Absolute script imports follow the documented search order", "statement": "An absolute import path of a script is resolved to the first existing file among: the answer of resolve(), the Python package's folder, the current folder, the referrer's folder; and to nothing if none exists.", "quantifier": "every path, file system, resolver and referrer", "why_tests_cant": "All combinations of existing and missing files.", "anchors": ["src/hypertag/core/runtime.py:HyLoader.load"]}
{"id": "C64", "title": "Script modules are translated at most once", "statement": "Over any sequence of imports, the script file at a given location is read and translated at most once.", "quantifier": "every history of imports", "why_tests_cant": "All histories.", "anchors": ["src/hypertag/core/runtime.py:HyLoader.load", "src/hypertag/core/runtime.py:Loader.load"]}
{"id": "C65", "title": "Parsing always terminates", "statement": "For every text the parser of the grammar, started with any rule, gives one result after finitely many nested calls: no rule is left-recursive and no repetition loops on empty matches.", "quantifier": "every text, every rule of the grammar", "why_tests_cant": "Infinitely many texts; non-termination is not observable by a test.", "anchors": ["src/hypertag/core/grammar.py:grammar", "src/hypertag/nifty/parsing.py:ParsimoniousTree"]}
{"id": "C66", "title": "The syntax tree is lossless and the only parse failure is an incomplete parse", "statement": "If a script parses, the leaves of the syntax tree concatenate to exactly the script, and each inner node to exactly its text. If it does not parse, the exception is IncompleteParseError - the one that HypertagAST.__init__ handles - with a non-empty unmatched ending of the text.", "quantifier": "every text", "why_tests_cant": "Infinitely many texts.", "anchors": ["src/hypertag/core/grammar.py:grammar", "src/hypertag/core/ast.py:HypertagAST.__init__"]}
{"id": "C67", "title": "The custom tag produces one element of the given name", "statement": "%custom 'NAME' accepts exactly one positional attribute (any other number is a TypeError, whatever the body); its output is seen by a reader as one element NAME with exactly the given keyword attributes, around the body.", "quantifier": "every name, attribute list and body", "why_tests_cant": "All combinations of names, attributes and bodies.", "anchors": ["src/hypertag/std/html.py:CustomTag"]}
{"id": "C68", "title": "The comment tag hides its body", "statement": "%comment accepts no attributes; a reader of its output sees nothing of the body, and nothing of what follows the comment is hidden.", "quantifier": "every body", "why_tests_cant": "Adversarial bodies.", "anchors": ["src/hypertag/std/html.py:comment"]}
{"id": "C69", "title": "Batch operations of the symbol table keep first definitions", "statement": "pushall adds symbols in order; pushnew keeps the value of each name already present and gives each other name its first listed value; asdict(n) lists the latest values since position n; after a branch of a control block (asdict, reset, pushnew) names known before keep their values and new names have the values of the branch.", "quantifier": "every history of operations", "why_tests_cant": "Unbounded histories.", "anchors": ["src/hypertag/core/structs.py:MultiDict.pushall", "src/hypertag/core/structs.py:MultiDict.pushnew", "src/hypertag/core/structs.py:MultiDict.asdict", "src/hypertag/core/ast.py:NODES.control_block"]}
{"id": "C70", "title": "Concatenation and formatted strings join texts in order", "statement": "The value of a concatenation or of a formatted string is the text of its operands joined in the order of writing; an operand equal to None is an error reported before later operands are evaluated. A sum of strings is their concatenation, too.", "quantifier": "every number of operands and every value", "why_tests_cant": "Unbounded lists of operands with side effects.", "anchors": ["src/hypertag/core/ast.py:NODES.xconcat_expr", "src/hypertag/core/ast.py:NODES.xstring_format"]}
{"id": "C71", "title": "Repeated not and unary minus", "statement": "An odd number of 'not' is the negated truth of the operand, an even number is the operand itself; unary minus of None is None and Python's negation of any other value.", "quantifier": "every count and every operand", "why_tests_cant": "Unbounded counts.", "anchors": ["src/hypertag/core/ast.py:NODES.xnot_test", "src/hypertag/core/ast.py:NODES.xarith_expr"]}
{"id": "C72", "title": "Calls, subscripts and collections receive their parts in order", "statement": "A call passes unnamed arguments in order and each name with the last value given for it; subscripts, slices (missing parts are None), lists, tuples, sets and dicts receive the values of their parts, all evaluated left to right exactly once; tail operators apply left to right.", "quantifier": "every list of arguments, every value", "why_tests_cant": "Unbounded lists.", "anchors": ["src/hypertag/core/ast.py:NODES.xcall", "src/hypertag/core/ast.py:NODES.xindex", "src/hypertag/core/ast.py:NODES.xslice_value", "src/hypertag/core/ast.py:NODES.xfactor"]}
{"id": "C73", "title": "In-place assignment is assignment of the binary operation", "statement": "x op= e stores x op e in x, for every operator; whenever evaluation of e leaves x alone this is the same as x = x op e; an unbound x is reported as such.", "quantifier": "every operator, expression and state", "why_tests_cant": "All expressions with side effects.", "anchors": ["src/hypertag/core/ast.py:NODES.xblock_assign"]}
{"id": "C74", "title": "A hypertag used in an expression is a function that renders it", "statement": "A hypertag mentioned in an expression gives a function bound to the state of that place; called with a text and attributes it returns the rendered expansion of the hypertag with that text as the body; without an argument the body is empty.", "quantifier": "every hypertag, body text and attribute list", "why_tests_cant": "All definitions.", "anchors": ["src/hypertag/core/ast.py:EmbeddedHypertag", "src/hypertag/core/ast.py:NODES.variable"]}
{"id": "C75", "title": "Imports bind exactly the requested symbols", "statement": "After 'from m import x as y' the symbol y (with the mark of x) is bound to the module's value of x and nothing else changes; after an import statement or context block with any number of items every symbol asked for has the value of the last item that asks for it, and nothing else changes; a missing symbol is an ImportError; an imported hypertag is expanded in the state of its own module.", "quantifier": "every module table, list of items, name and rename", "why_tests_cant": "All tables.", "anchors": ["src/hypertag/core/ast.py:NODES.xname_import", "src/hypertag/core/ast.py:NODES.xblock_import", "src/hypertag/core/ast.py:Hypertag"]}
{"id": "C76", "title": "Expressions are grouped by the precedence of operators", "statement": "The parser together with rewriting and setup reads every well-formed expression as the tree given by the documented precedence (** over * / // % over + - over << >> over & over ^ over | over filters over concatenation over comparisons over not over and over or over if-else), operators of one level forming one chain and parentheses overriding; a text is a form of at most one expression.", "quantifier": "every expression of any depth, every layout of blanks", "why_tests_cant": "Infinitely many expressions; precedence errors hide in combinations.", "anchors": ["src/hypertag/core/grammar.py:grammar", "src/hypertag/core/ast.py:HypertagAST.__init__", "src/hypertag/core/ast.py:NODES.xexpr"]}
{"id": "C77", "title": "Whole scripts are loaded as the statements they denote", "statement": "For every well-formed script - nested tags with attributes, text blocks of three kinds, control blocks with their clauses, definitions, imports, context, assignments, comments, modifiers, any indentation - loading (preprocess, parse, rewrite, setup) yields exactly the statements it denotes; no script denotes two lists of statements.", "quantifier": "every script of any size and nesting", "why_tests_cant": "Infinitely many scripts.", "anchors": ["src/hypertag/core/grammar.py:grammar", "src/hypertag/core/ast.py:HypertagAST.__init__", "src/hypertag/core/ast.py:HypertagAST.preprocess"]}
{"id": "C78", "title": "The condition of if, elif and while is the whole expression after the keyword", "statement": "In 'if EXPR:', 'elif EXPR:' and 'while EXPR:' the condition is the entire expression EXPR.", "quantifier": "every expression and every body", "why_tests_cant": "All operators in all positions.", "anchors": ["src/hypertag/core/grammar.py:tail_if", "src/hypertag/core/ast.py:NODES.xblock_if", "src/hypertag/core/ast.py:NODES.xblock_while"]}
{"id": "C79", "title": "A page template is rendered to the markup it stands for", "statement": "A template made of nested elements with attributes, texts of three kinds with embedded variables, void and empty elements, comments and empty lines is loaded, analysed, translated and rendered to exactly the expected document: each element around its contents, on the lines and at the indentation of the template, with values escaped in texts and quoted in attributes.", "quantifier": "every page of any size, nesting and indentation, and all values of variables that are printed on one line", "why_tests_cant": "Infinitely many templates; the claim spans all phases from the source text to the output.", "anchors": ["src/hypertag/core/ast.py:HypertagAST", "src/hypertag/core/ast.py:NODES.xdocument", "src/hypertag/core/dom.py:DOM.Root", "src/hypertag/core/grammar.py:grammar"]}
{"id": "C80", "title": "Values of variables never change the structure of a page", "statement": "A reader (tokenizer) of the document rendered from a page template sees exactly the elements of the template in their order, with the values of variables as values of attributes and as visible characters of texts; values cannot add, remove or change tags or attributes, unless used in markup text.", "quantifier": "every page, all values of variables in attributes, and all values in texts that are printed on one line (C82 covers the others)", "why_tests_cant": "Adversarial values in all positions of all templates.", "anchors": ["src/hypertag/core/ast.py:NODES.xline_normal", "src/hypertag/core/tag.py:Markup._expand", "src/hypertag/core/run_html.py:HyperHTML.escape"]}
{"id": "C81", "title": "Whatever a script does, the document it makes is a finite tree", "statement": "For every script - with loops, recursive hypertags, bodies embedded repeatedly, hypertags called by external functions, exceptions caught by try blocks - the document it is translated to is a finite tree: no node is inside of itself at any level; the same holds for all nodes accessible through the symbols it exports.", "quantifier": "every script, every behaviour of external code that passes on only nodes it was given, every run that succeeds", "why_tests_cant": "Aliasing of mutable nodes over unbounded executions; a cycle would appear only for particular combinations.", "anchors": ["src/hypertag/core/ast.py:NODES.xdocument", "src/hypertag/core/ast.py:NODES.xblock_def", "src/hypertag/core/dom.py:DOM", "src/hypertag/core/ast.py:NODES.xblock_embed"]}
{"id": "C82", "title": "Whatever a script does, its document has balanced markup made of the available tags", "statement": "The text rendered from a script with no unescaped lines is well-formed: a tokenizer reads it completely, each element that is opened is closed, elements are properly nested, their names are those of the tags available to the script, and names of attributes are valid - whatever the values of variables, the control flow and the external functions are.", "quantifier": "every script without unescaped lines, all values, every behaviour of external code, every run that succeeds", "why_tests_cant": "A safety property of all executions with adversarial data.", "anchors": ["src/hypertag/core/ast.py:NODES.xline_normal", "src/hypertag/core/ast.py:EmbeddedHypertag", "src/hypertag/core/tag.py:Markup._expand", "src/hypertag/core/run_html.py:HyperHTML.escape", "src/hypertag/core/dom.py:DOM.Node"]}
{"id": "C83", "title": "Every script that loads is a well-made tree, and setup never meets an unexpected child", "statement": "Whatever text is given: if it loads, statements at all depths are where the grammar allows them (blocks in bodies, bodies in blocks, else clauses last), every indentation character opened is closed in order, names, attribute names and texts consist of permitted characters, keywords match arguments, attributes of a hypertag are distinct, in-place assignments have one variable, nothing is resolved yet; if it does not load, the reason is never that setup of a node found other children than it expects (an internal error).", "quantifier": "every text whatsoever", "why_tests_cant": "Infinitely many texts, including malformed ones; the claim relates some 90 grammar rules with the setup code of some 60 node classes.", "anchors": ["src/hypertag/core/grammar.py:grammar", "src/hypertag/core/ast.py:NODES", "src/hypertag/core/ast.py:HypertagAST.__init__", "src/hypertag/core/ast.py:NODE.setup"]}
{"id": "C84", "title": "A template with conditions, loops and variables is rendered to the markup it stands for", "statement": "A template made of elements, texts, if/elif/else clauses with conditions, for loops, assignments of values and strings, and expressions that are variables with fields (user.name), nested in any way, is loaded, analysed, translated and rendered to exactly the expected document: the first clause whose condition is true is chosen, loops repeat their bodies for all items in order with the loop variable set, assigned variables are visible in the blocks that follow, bodies of control blocks are not indented, and values are escaped in texts and quoted in attributes.", "quantifier": "every template of any size, nesting and indentation, and all data (texts, numbers, lists, records, None)", "why_tests_cant": "Infinitely many templates and data; the claim spans all phases from the source text to the output.", "anchors": ["src/hypertag/core/ast.py:NODES.xblock_if", "src/hypertag/core/ast.py:NODES.xblock_for", "src/hypertag/core/ast.py:NODES.xblock_assign", "src/hypertag/core/ast.py:NODES.xdocument", "src/hypertag/core/grammar.py:grammar"]}
{"id": "C85", "title": "Data influence the structure of a document only through conditions and loops", "statement": "A reader (tokenizer) of the document rendered from a template with conditions, loops and variables sees exactly the elements of the chosen clauses, and those in loops once for each item, with the data as values of attributes and as visible characters of texts; data cannot add, remove or change tags or attributes in any other way, unless used in markup text.", "quantifier": "every template, all data; texts are printed on one line", "why_tests_cant": "Adversarial values in all positions of all templates.", "anchors": ["src/hypertag/core/ast.py:NODES.xblock_if", "src/hypertag/core/ast.py:NODES.xblock_for", "src/hypertag/core/ast.py:NODES.xline_normal", "src/hypertag/core/tag.py:Markup._expand", "src/hypertag/core/run_html.py:HyperHTML.escape"]}
{"id": "C86", "title": "A script with components is rendered to the markup it stands for", "statement": "A script that defines hypertags (with parameters, default values and a body) and uses them in templates with conditions and loops is loaded, analysed, translated and rendered to exactly the expected document: each use stands for the template of the definition with the arguments of this use, default values for omitted parameters, and the body of this use in place of the embedded body. Hypertags may use earlier ones, also within bodies of others.", "quantifier": "every list of definitions, every template of any size and nesting, and all data; each body is embedded at most once", "why_tests_cant": "Infinitely many programs; the claim spans all phases from the source text to the output, with unbounded nesting of expansions.", "anchors": ["src/hypertag/core/ast.py:NODES.xblock_def", "src/hypertag/core/ast.py:Hypertag", "src/hypertag/core/ast.py:NODES.xblock_embed", "src/hypertag/core/ast.py:NODES.xtag_expand", "src/hypertag/core/ast.py:NODES.xdocument"]}
{"id": "C87", "title": "Arguments of components never change the structure of a document", "statement": "A reader (tokenizer) of the document of a script with hypertags sees exactly the elements the template stands for, with the elements of the definition in place of each use; arguments and data appear as values of attributes and visible characters only, unless used in markup text.", "quantifier": "every script as in the property before, all data; texts are printed on one line", "why_tests_cant": "Adversarial values through any number of expansions.", "anchors": ["src/hypertag/core/ast.py:NODES.xblock_def", "src/hypertag/core/ast.py:NODES.xline_normal", "src/hypertag/core/tag.py:Markup._expand", "src/hypertag/core/run_html.py:HyperHTML.escape"]}
{"id": "C88", "title": "Definitions of a script begin at different positions", "statement": "In any script that loads, definitions of hypertags have increasing positions in the order of the text, enclosing ones first, and analysis preserves this; hence a position identifies a definition, as assumed by the model of hypertag objects.", "quantifier": "every text that loads", "why_tests_cant": "Infinitely many scripts, definitions nested in any way.", "anchors": ["src/hypertag/core/grammar.py:grammar", "src/hypertag/core/ast.py:NODES.xblock_def", "src/hypertag/core/ast.py:HypertagAST.__init__"]}
{"id": "C89", "title": "A script that was parsed is rejected exactly for misplaced attributes, repeated parameters, in-place assignment to several variables, misplaced qualifiers and bad literals", "statement": "After a script is parsed, its nodes can be set up if and only if no tag has an unnamed attribute after a named one, no definition has two parameters of the same name, no in-place assignment has more than one variable on the left, no qualifier follows the braces of an unnamed attribute or of a default value, and no string has an escape sequence that cannot be decoded. Otherwise the exception is that of the first node that violates it, children before parents: SyntaxErrorEx, AssertionError, or the error of decoding.", "quantifier": "every text that can be parsed", "why_tests_cant": "Infinitely many scripts; completeness of validation (nothing wrong is accepted, nothing right is rejected) is not observable on samples.", "anchors": ["src/hypertag/core/ast.py:NODES.xtag_expand", "src/hypertag/core/ast.py:NODES.xblock_def", "src/hypertag/core/ast.py:NODES.xblock_assign", "src/hypertag/core/ast.py:NODES.xattr_unnamed", "src/hypertag/core/ast.py:NODES.xattr_def", "src/hypertag/core/ast.py:NODES.static"]}
{"id": "C90", "title": "Analysis accepts a script exactly when names, imports and places are right, and reports the first fault", "statement": "Analysis of a script succeeds if and only if each name that is used is in scope at that place, each module that is imported loads and has the symbols that are asked for, the context has those that are declared, no definition of a hypertag and no import is inside of a control block at any depth, and each context block is in the prolog. Otherwise the exception is that of the first of these checks that fails, in the order of the text (attributes of a tag before its name, the expression of an assignment before its targets). For scripts that were loaded from a text, with proper symbols given from outside, the exception is never an AssertionError or IndexError.", "quantifier": "every list of statements, all modules, contexts and global symbols", "why_tests_cant": "Infinitely many programs; that nothing wrong is accepted and nothing right is rejected, and which of several faults is reported, cannot be seen on samples.", "anchors": ["src/hypertag/core/ast.py:NODES.xdocument", "src/hypertag/core/ast.py:NODES.xblock_def", "src/hypertag/core/ast.py:NODES.xblock_import", "src/hypertag/core/ast.py:NODES.xblock_context", "src/hypertag/core/ast.py:NODES.xvar_use", "src/hypertag/core/ast.py:NODES.xtag_expand", "src/hypertag/core/structs.py:Context"]}
{"id": "C91", "title": "Error messages point to the place in the original script", "statement": "The message of an exception raised for a node of a script tells a line and a column of the original script, although nodes have positions in the text whose indentation is encoded: for a node within a line, the line is the one that contains it and the column is that of the place right after it, whatever its indentation; for a node of several lines the line is that of its end, and the column is counted with the indentation of its beginning. The message quotes the text of the node, at most 20 characters.", "quantifier": "every script, every node that begins and ends with ordinary characters", "why_tests_cant": "Infinitely many scripts with any indentation; off-by-one errors appear only for particular combinations of margins, dedents and blank lines.", "anchors": ["src/hypertag/core/errors.py:HError.make_msg", "src/hypertag/nifty/parsing.py:ParserError.__init__", "src/hypertag/nifty/parsing.py:Tree.node.text", "src/hypertag/core/ast.py:Grammar.preprocess"]}
{"id": "C92", "title": "A Python module gives scripts exactly its attributes as variables and its registered tags", "statement": "From a Python module a script can import exactly: each attribute as a variable of the same name and each entry of `__tags__` as a tag of the same name; `__tags__` itself is not importable. The module is rejected exactly if `__tags__` is neither false nor a dictionary or has a tag under a name other than its own or under an empty name. A registry holds under each name what was registered last under it, and a module with its tags is always accepted.", "quantifier": "all modules and objects, all sequences of registrations", "why_tests_cant": "Unbounded sequences of registrations and arbitrary modules; that nothing else is exported is a universal claim.", "anchors": ["src/hypertag/core/runtime.py:PyModule", "src/hypertag/std/registry.py:Registry.tag", "src/hypertag/std/registry.py:Registry.var", "src/hypertag/core/tag.py:TagFunction"]}
{"id": "C93", "title": "Scripts that import scripts: the cache is invisible, no file is translated twice, circles cannot be imported", "statement": "When scripts import other scripts to any depth, every import gives the module that translating its file with the meanings of its own imports gives, whatever was imported before and by which script; each file is translated at most once, also if several scripts import it. An import ends (with a module or an exception) whenever the chains of imports from its file are finite. A name without dots for which no folder has a script gives what Python's import gives, or the error that there is no such module. Scripts that import each other in a circle can never be imported, whatever the depth of recursion allowed.", "quantifier": "every project, every sequence of imports; for the first three claims, import paths that denote the same file for every importer (no dots, or answered by resolve) or a Python module", "why_tests_cant": "Unbounded graphs of imports and histories of requests; recursion between the loader and translation.", "anchors": ["src/hypertag/core/runtime.py:HyLoader.load", "src/hypertag/core/runtime.py:Runtime.import_module", "src/hypertag/core/runtime.py:Runtime.translate", "src/hypertag/core/ast.py:NODES.xblock_import"]}
{"id": "C94", "title": "render() gives a script exactly the variables and tags it was called with", "statement": "Each keyword argument of render() is available in the script as a variable of the same name with the same value, except __file__, __package__ and __tags__, and each entry of __tags__ as a tag; nothing else is. A call is rejected on the way exactly if a variable is called self, __script__, builtins or __builtins__ (TypeError), __tags__ is true but no dictionary, or a name is empty.", "quantifier": "all dictionaries of arguments", "why_tests_cant": "All combinations of names; that nothing is lost, renamed or added is a universal claim.", "anchors": ["src/hypertag/core/runtime.py:Runtime.render", "src/hypertag/core/runtime.py:Runtime.translate", "src/hypertag/core/runtime.py:HyModule.translate", "src/hypertag/core/ast.py:HypertagAST.translate", "src/hypertag/core/ast.py:HypertagAST.make_context"]}
{"id": "C95", "title": "A Django template receives the data, the request and the file that belong to it", "statement": "The Django backend finds the first candidate file that exists, or reports all candidates. A template is rendered with the variables of the given dictionary, those of its own request (request, csrf_input, csrf_token) and its own file name as __file__ unless one is given; it receives nothing of templates rendered before.", "quantifier": "all templates, requests and dictionaries, all sequences of renderings", "why_tests_cant": "Interference between renderings depends on which objects are shared, for all histories.", "anchors": ["src/hypertag/django/backend.py:Hypertag.get_template", "src/hypertag/django/backend.py:Template.render"]}
{"id": "C96", "title": "A variable assigned in a control block is visible after it", "statement": "Control blocks do not create namespaces: a variable assigned inside an if/try/for/while block, in any of its branches, is the one that the same name denotes in siblings that follow, with the value assigned.", "quantifier": "every control block anywhere in any document, every variable", "why_tests_cant": "All nestings of branches, loops, and tagged blocks, and all combinations of earlier declarations of the name; a wrong choice of the slot shows only for particular ones.", "anchors": ["src/hypertag/core/ast.py:NODES.control_block._analyse_branches", "src/hypertag/core/ast.py:NODES.xblock_for", "src/hypertag/core/ast.py:NODES.xvar_def", "src/hypertag/core/structs.py:MultiDict.pushnew", "docs/index.md:Name scoping"]}
{"id": "C97", "title": "A script exports exactly its top-level symbols, with their final values", "statement": "The symbols that other scripts can import from a script are those that it assigns, defines or imports on its top level, in control blocks as well, and no other; the value of each is the one that its name has at the end of the script, and a symbol whose variable has got no value is left out.", "quantifier": "every script accepted, all global symbols, all runs of its translation", "why_tests_cant": "That nothing is missing and nothing else is there is a universal claim over all scripts.", "anchors": ["src/hypertag/core/ast.py:NODES.xdocument", "src/hypertag/core/structs.py:Context", "src/hypertag/core/structs.py:MultiDict.asdict"]}
{"id": "C98", "title": "Layout: modifiers, mixed bodies, the null tag and pass", "statement": "The script of a template with elements, texts, mixed bodies, `.`, `pass`, control blocks and the modifiers `...` and `<` is rendered to the text it stands for, with exactly its newlines and indentation: a block begins on a new line, unless it is a text or an element after `...`, which continues the line; its lines are indented under the element it is in, unless it is after `<`; the end tag of an element is on a new line exactly if its content begins with one; `.` and `pass` add nothing.", "quantifier": "every template of any size and nesting, all data", "why_tests_cant": "Infinitely many combinations of nesting and modifiers; a wrong newline or indentation appears only for particular ones.", "anchors": ["src/hypertag/core/ast.py:NODES.xblock", "src/hypertag/core/ast.py:NODES.xblock_struct", "src/hypertag/core/ast.py:NODES.body", "src/hypertag/core/ast.py:NODES.xtag_expand", "src/hypertag/core/ast.py:NODES.xpass", "src/hypertag/core/dom.py:Node.set_outline", "src/hypertag/core/dom.py:Node.set_indent", "src/hypertag/core/dom.py:Node.render", "docs/index.md:Modifiers"]}
{"id": "C99", "title": "Relative imports are relative to the package the script is located in", "statement": "An imported script belongs to the package it is located in, however it was imported. Its relative imports, of scripts and of Python modules, start in that package and go up one level for each further dot; imports from above the top package are rejected.", "quantifier": "every project of any depth, every script and every relative path in it", "why_tests_cant": "Unbounded depth of packages and chains of imports; where a script believes to be depends on how it was found.", "anchors": ["src/hypertag/core/runtime.py:HyLoader.load", "src/hypertag/core/runtime.py:HyLoader._join_path", "src/hypertag/core/runtime.py:Loader._make_absolute", "src/hypertag/core/runtime.py:HyModule.translate", "src/hypertag/core/runtime.py:join_path"]}
{"id": "C100", "title": "Expansions of hypertags do not influence each other", "statement": "The expansion of a hypertag depends only on its attributes, its body and the variables outside of hypertags: whatever hypertags were expanded before it, with any arguments and outcomes, and whether in blocks or in expressions, it gives the same nodes or the same exception.", "quantifier": "every set of hypertag definitions, every sequence of expansions; for hypertags that assign a variable in any case before they use it", "why_tests_cant": "Local variables of hypertags live in the state of the script and survive the expansion; stale values appear only for particular sequences of calls.", "anchors": ["src/hypertag/core/ast.py:NODES.xblock_def.expand", "src/hypertag/core/ast.py:NODES.xblock_def._append_attrs", "src/hypertag/core/ast.py:NODES.xvar_use", "src/hypertag/core/structs.py:State", "docs/index.md:Custom tags"]}
{"id": "C101", "title": "Symbols that a script does not mention make no difference to it", "statement": "More builtin symbols, which a script neither uses nor assigns, defines, declares or imports, have no influence on it, whatever they are: analysis finds the same fault or none, and translation gives the same nodes, the same exported symbols with the same values, or the same exception.", "quantifier": "every script that can be loaded, all sets of builtins and additional symbols, all runs of its translation", "why_tests_cant": "All scripts and all sets of symbols; a symbol that slips into the scope of a script shows only if names collide.", "anchors": ["src/hypertag/core/ast.py:NODES.xdocument.analyse", "src/hypertag/core/ast.py:NODES.node.analyse", "src/hypertag/core/structs.py:Context", "src/hypertag/core/structs.py:MultiDict.pushnew", "src/hypertag/core/structs.py:ValueSlot", "src/hypertag/core/runtime.py:Runtime.translate"]}
{"id": "C102", "title": "Names of variables and tags do not matter", "statement": "If the variables and tags of a script, and the builtins it is given, get other names, different ones for different ones, nothing changes except the names: analysis finds the same fault, under the new name, or none, and translation gives the same nodes, the same effects and the same values of the exported symbols, which have the new names, or the same exception. Attributes of hypertags and symbols imported by a wildcard keep their names; an imported symbol gets its new name by `as`.", "quantifier": "every parsed script, every injective renaming (also one that exchanges names), all builtins and runs of translation", "why_tests_cant": "All scripts and all renamings; capture of a name by another shows only where scopes meet in particular ways.", "anchors": ["src/hypertag/core/ast.py:NODES.xvar_use", "src/hypertag/core/ast.py:NODES.xvar_def", "src/hypertag/core/ast.py:NODES.xtag_use", "src/hypertag/core/ast.py:NODES.xtag_expand", "src/hypertag/core/ast.py:NODES.xblock_def.analyse", "src/hypertag/core/ast.py:NODES.xblock_import", "src/hypertag/core/structs.py:Context", "src/hypertag/core/structs.py:MultiDict"]}
{"id": "C103", "title": "split_where cuts a sequence exactly where its test holds", "statement": "The pieces returned by split_where are not empty and make up the sequence; a new piece begins exactly at the positions pos between neighbours a, b where cut_test(pos, a, b) is true; key_func receives the start and stop index of each piece.", "quantifier": "all sequences, all tests", "why_tests_cant": "Unbounded sequences and arbitrary tests; errors at the last piece or at the first position are not visible in the pieces themselves.", "anchors": ["src/hypertag/nifty/util.py:split_where"]}
{"id": "C104", "title": "Sequence utilities lose nothing and keep the order", "statement": "The batches of batch(seq, n) make up the sequence, have n elements each but the last one, which has between 1 and n; partition asks its test once per element in order and returns the elements with either answer in their order; flatten does not depend on grouping and, on a list of lists, concatenates them (as the parser needs); duplicates is the set of elements that occur at least twice, and duplicate is None exactly if there are none.", "quantifier": "all sequences, sizes and tests (also tests with a state)", "why_tests_cant": "Unbounded sequences, nesting and sizes.", "anchors": ["src/hypertag/nifty/util.py:batch", "src/hypertag/nifty/util.py:chain", "src/hypertag/nifty/util.py:partition", "src/hypertag/nifty/util.py:flatten", "src/hypertag/nifty/util.py:duplicates", "src/hypertag/nifty/util.py:duplicate", "src/hypertag/nifty/parsing.py:ParsimoniousTree._rewriteNode"]}
{"id": "C105", "title": "File name extensions are dropped, set and read consistently", "statement": "dropext removes the last dot of the last component of a path and what follows, dropexts the first dot and what follows, and both leave a component without dots alone, whatever the directories are called. setext replaces what dropext removes. getext reads what setext has set, and setting what getext reads changes nothing. normdir makes a path end with a slash.", "quantifier": "all paths and extensions", "why_tests_cant": "Dots and slashes may stand anywhere.", "anchors": ["src/hypertag/nifty/util.py:getext", "src/hypertag/nifty/util.py:dropext", "src/hypertag/nifty/util.py:dropexts", "src/hypertag/nifty/util.py:setext", "src/hypertag/nifty/util.py:normdir"]}
{"id": "C106", "title": "push and pop of a logger's context are stacks, one for each key", "statement": "After any sequence of push, pop and assignments the value of a key is the top of a stack of its own, which starts with the value given at creation, and the key is absent exactly if that stack is empty; pop fails exactly then. So a push and the pop that belongs to it restore every value, whatever properly nested operations are between.", "quantifier": "all sequences of operations on all keys", "why_tests_cant": "Interleavings of operations on many keys are unbounded.", "anchors": ["src/hypertag/nifty/util.py:Logger.push", "src/hypertag/nifty/util.py:Logger.pop", "src/hypertag/nifty/util.py:Logger.__setitem__", "src/hypertag/nifty/util.py:Logger.__init__"]}
{"id": "C107", "title": "Dictionary utilities select, complete and split entries correctly", "statement": "subdict has exactly the entries whose keys are given, whichever of its loops it takes, and its strict variant fails exactly if a key is missing; setdefaults changes exactly the given keys that are missing or None; splitkeys gives each word of a key the value of the key, the last one if there are several.", "quantifier": "all dictionaries and lists of keys", "why_tests_cant": "Two algorithms are chosen by the sizes; that they agree is a claim over all inputs.", "anchors": ["src/hypertag/nifty/util.py:subdict", "src/hypertag/nifty/util.py:setdefaults", "src/hypertag/nifty/util.py:splitkeys"]}
{"id": "C108", "title": "Derived comparison operators are consistent", "statement": "If < is a strict weak order, the operators of ComparableMixin agree: exactly one of <, ==, > holds, != <= >= are the negations, == is an equivalence and <= a total preorder whose symmetric part is ==.", "quantifier": "all strict weak orders on any type, all elements", "why_tests_cant": "A law over all orders and triples of elements.", "anchors": ["src/hypertag/nifty/util.py:ComparableMixin"]}
{"id": "C109", "title": "Scripts can be put together", "statement": "If two correct scripts are put one after another, from a new line on, the result is a correct script: its encoding is the concatenation of the encodings, and its syntax tree has the blocks of the first followed by the blocks of the second, each one exactly as in its own script. Also the statements that are built from it are those of the first script followed by those of the second one; only the positions of definitions, which are their identities, are moved by the length of the first encoding. This holds if neither begins with an indented line, the first one ends with a line that is not blank and has a closing quote after each quote with a letter r before it in the same line, and the second one does not begin with text that may be taken for a continuation (else, elif, or the second word of a two-word operator).", "quantifier": "all pairs of scripts, all choices of characters for marks", "why_tests_cant": "All pairs of scripts; the parser backtracks and looks ahead, so it may choose another reading of a text because of what follows it.", "anchors": ["src/hypertag/core/grammar.py:grammar", "src/hypertag/core/ast.py:HypertagAST.__init__", "src/hypertag/core/ast.py:Grammar.preprocess", "src/hypertag/nifty/parsing.py:ParsimoniousTree"]}
{"id": "C110", "title": "A block @ embeds exactly the nodes of its value", "statement": "@ expression inserts the nodes of a DOM, a single node, or, for another value, the nodes that its elements stand for, in order and each one as often as it occurs; None stands for no nodes. They get the indentation of the block, and nothing but indentation of nodes changes. A value that cannot be listed is a TypeError, and so is an element that is neither a node nor a collection of nodes; then nothing is inserted.", "quantifier": "all values, expressions, states and behaviours of Python code", "why_tests_cant": "All nestings of values, with user code that runs while they are listed.", "anchors": ["src/hypertag/core/ast.py:NODES.xblock_embed.translate", "src/hypertag/core/ast.py:NODES.xblock_embed._as_sequence", "src/hypertag/core/dom.py:DOM._flatten", "src/hypertag/core/dom.py:DOM.set_indent", "src/hypertag/core/dom.py:DOM.Node.relative_indent"]}
{"id": "C111", "title": "Values have one truth", "statement": "None, False, the empty string and an empty DOM are false; True, every other string, a DOM with a node, a node, a hypertag and a function made of one are true; testing them has no effect. and, or, not, the conditional expression, the qualifiers ? and !, if, elif and while all go by this.", "quantifier": "all values and expressions, all states and behaviours of Python code", "why_tests_cant": "All values in all contexts; each construct has a test of its own in the code.", "anchors": ["src/hypertag/core/ast.py:NODES.xand_test.evaluate", "src/hypertag/core/ast.py:NODES.xor_test.evaluate", "src/hypertag/core/ast.py:NODES.xnot_test.evaluate", "src/hypertag/core/ast.py:NODES.xifelse_test.evaluate", "src/hypertag/core/ast.py:NODES.expression_root", "src/hypertag/core/ast.py:NODES.xblock_if", "src/hypertag/core/ast.py:NODES.xblock_while", "src/hypertag/core/dom.py:DOM.__bool__"]}
{"id": "C112", "title": "Independent scripts put together are rendered one after another", "statement": "Let a second script mention none of the symbols that a first one defines (variables, loop variables, hypertags, imports and attributes), have no context block, and let neither define a builtin symbol anew. Then the script that has the blocks of both has the fault of the first, if there is one, otherwise that of the second alone; without faults, it renders the nodes of the first followed by the nodes of the second, the same nodes with the same contents as if each script had builtins and variables of its own, or raises the same exception; and it exports the symbols of both. In particular the numbers given to slots do not matter: a script analysed from another number on has the same faults and renders the same. With a builtin that is assigned in the first script the claim is false.", "quantifier": "all pairs of scripts, builtins, numbers of slots, states, hypertags and behaviours of Python code", "why_tests_cant": "All pairs of scripts: variables share one array of slots, which are numbered by order of appearance, and each loop, definition and import takes some.", "anchors": ["src/hypertag/core/structs.py:Slot", "src/hypertag/core/structs.py:Context", "src/hypertag/core/ast.py:NODES.xdocument.analyse", "src/hypertag/core/ast.py:NODES.xdocument.translate", "src/hypertag/core/structs.py:State", "src/hypertag/core/ast.py:NODES.xblock_def.expand"]}
{"id": "C113", "title": "Comments make no difference", "statement": "A script has the same faults without its comments, gives its symbols the same slots, exports the same symbols and is translated to the same nodes, or raises the same exception, in every state; also if comments are in bodies of hypertags. Of a comment only the blank lines above it are left. In particular a comment does not end the prolog.", "quantifier": "all scripts with comments on any level, all states and behaviours of Python code", "why_tests_cant": "All scripts and all places of comments.", "anchors": ["src/hypertag/core/ast.py:NODES.xblock", "src/hypertag/core/ast.py:NODES.xblock_comment", "src/hypertag/core/ast.py:NODES.xdocument", "src/hypertag/core/ast.py:NODES.body"]}
{"id": "C114", "title": "A hypertag that is not mentioned makes no difference", "statement": "If a hypertag is defined correctly between blocks of a script and its name does not occur below, and no context block is below, the script has the same faults without the definition, of which only the blank lines above are left; without faults it is translated to the same nodes with the same contents, or raises the same exception, and exports the same symbols with the same values, except for the hypertag. The variables and attributes of the definition, and definitions inside of it, disturb nothing, although they share the slots with all other variables.", "quantifier": "all scripts, all places of the definition among blocks, builtins, states, other hypertags and behaviours of Python code", "why_tests_cant": "All scripts and definitions; a definition takes slots between those of other variables.", "anchors": ["src/hypertag/core/ast.py:NODES.xblock_def", "src/hypertag/core/structs.py:Slot", "src/hypertag/core/structs.py:Context", "src/hypertag/core/ast.py:NODES.xdocument"]}
{"id": "C115", "title": "A script has one outcome", "statement": "The translation of a script, of a block, an expression, an expansion or a call of a hypertag has at most one outcome: nodes, symbols and memory, or an exception. The bounds of the model on the depth of nested expansions and on iterations decide only whether the outcome is found: within larger bounds it is the same, and a bound that is too small is noticed, as no try block, qualifier or Python code that calls hypertags takes it for something else. A loop whose condition stays true has no outcome.", "quantifier": "all scripts, hypertags, states, bounds and behaviours of Python code (the recursion limit of Python itself, an ordinary exception, aside)", "why_tests_cant": "All bounds and all nestings of loops, expansions and handlers of exceptions.", "anchors": ["src/hypertag/core/ast.py:NODES.xblock_try.translate", "src/hypertag/core/ast.py:NODES.xblock_while.translate", "src/hypertag/core/ast.py:NODES.xblock_for.translate", "src/hypertag/core/ast.py:NODES.xblock_def.expand", "src/hypertag/core/ast.py:EmbeddedHypertag.__call__"]}
{"id": "C116", "title": "Whitespace at the ends of lines makes no difference", "statement": "Scripts with as many lines, that differ only by whitespace at the ends of lines, also in lines that are blank, have the same encoded form for any choice of marks; so they have the same statements or the same error, with the same number and text of the line. In particular scripts with line ends \\r\\n are read as those with \\n. This holds also inside of raw strings of several lines. The same parser is chosen for both, unless the whitespace is the character U+3000.", "quantifier": "all scripts and marks", "why_tests_cant": "All scripts, and all whitespace characters of Unicode.", "anchors": ["src/hypertag/core/ast.py:Grammar.preprocess", "src/hypertag/core/ast.py:Grammar.get_parser", "src/hypertag/core/ast.py:HypertagAST.__init__", "src/hypertag/core/ast.py:HypertagAST._locate_error"]}
{"id": "C117", "title": "The choice of marks makes no difference", "statement": "get_parser chooses four characters to mark indentation that do not occur in the script. Whichever four are chosen (distinct, and apart from whitespace and from the characters that the grammar refers to), the same lines have a wrong indentation, the encoded scripts differ in the marks only, as much of the script is parsed, the same line is reported with a syntax error, and the same statements with the same places result. No marks get into strings, names, paths or texts.", "quantifier": "all scripts, and all two choices of marks", "why_tests_cant": "All scripts and all choices of marks; tests contain no script with characters of the marks.", "anchors": ["src/hypertag/core/ast.py:Grammar.preprocess", "src/hypertag/core/ast.py:Grammar.get_parser", "src/hypertag/core/grammar.py:grammar", "src/hypertag/core/ast.py:HypertagAST.__init__", "src/hypertag/core/ast.py:HypertagAST._locate_error", "src/hypertag/core/ast.py:NODES.xstring_raw"]}
{"id": "C118", "title": "Scripts without while loops end", "statement": "If there are no while loops in a script, hypertags are used as tags only and imported symbols are not hypertags, the translation of the script ends: with a document or with an exception, whatever Python functions are called from it, as long as these return and iterators are finite. In particular no hypertag can expand itself, directly or by means of others, as its name is not known in its own body and another definition of this name above is another hypertag. Both conditions are needed: a while loop may go on for ever, and a hypertag that is given to itself as a value may call itself.", "quantifier": "all scripts without while loops and uses of hypertags as values, all builtins, states and behaviours of Python code that returns", "why_tests_cant": "All scripts, and all numbers of iterations and nestings of expansions; no test can tell a slow run from an endless one.", "anchors": ["src/hypertag/core/ast.py:NODES.xblock_def.analyse", "src/hypertag/core/ast.py:NODES.xblock_def.expand", "src/hypertag/core/ast.py:NODES.xblock_for.translate", "src/hypertag/core/ast.py:NODES.xtag_expand.translate_tag", "src/hypertag/core/ast.py:NODES.xblock_embed._as_sequence", "src/hypertag/core/dom.py:DOM.Node.relative_indent"]}
{"id": "C119", "title": "Blank lines at the end of a script are kept at the end of the document", "statement": "Lines that are empty or contain whitespace only, after the last line of a script, are loaded as one further statement of as many newlines as there are such lines; all other statements are loaded as without them, whatever the indentation of the last line is. The script has the same faults, slots and exported symbols, its translation gives the same nodes followed by one text, and the text of the document ends with that number of newlines, if there is any text before. The quotes of the script after a letter r are closed in their lines, and its first line is not indented.", "quantifier": "all scripts and all sequences of blank lines", "why_tests_cant": "All scripts; an error would be hidden in the tests, which compare texts after stripping.", "anchors": ["src/hypertag/core/ast.py:Grammar.preprocess", "src/hypertag/core/grammar.py:grammar", "src/hypertag/core/ast.py:NODES.xmargin", "src/hypertag/core/ast.py:NODES.xdocument.translate", "src/hypertag/core/dom.py:DOM.Root.render"]}
{"id": "C120", "title": "Blank lines at the beginning of a script are kept before its first block", "statement": "Lines that are empty or contain whitespace only, before a script whose first line is not indented, are loaded as empty lines before its first block, as many as there are such lines, in addition to those it has. All other statements are loaded as without them, including the columns of texts; only the positions of definitions, which are their identities, are moved by that number. The faults, slots and exported symbols do not depend on the empty lines before a block; its translation gives one text with these newlines before the same nodes, and the text of the document begins with that number of newlines.", "quantifier": "all scripts and all sequences of blank lines", "why_tests_cant": "All scripts; an error would be hidden in the tests, which compare texts after stripping.", "anchors": ["src/hypertag/core/ast.py:Grammar.preprocess", "src/hypertag/core/grammar.py:grammar", "src/hypertag/core/ast.py:NODES.xmargin", "src/hypertag/core/ast.py:NODES.xblock.translate", "src/hypertag/core/dom.py:DOM.Root.render"]}
{"id": "C121", "title": "The tags available to HTML scripts are exactly the elements of HTML and the text functions", "statement": "Every word of the two lists of element names is registered as a tag in small letters and in capital letters, and only so; it renders an element of this very name, which is void exactly if the word is in the list of void elements: those are the void elements of the HTML standard and the obsolete command and param. All elements of HTML5 are available, apart from keygen, rb and rtc. Besides there are custom and comment, and the tags of the text functions (doctype, dedent, unique, merge, inline, lower, upper), which are variables as well. A script of the HTML runtime is given exactly these tags, whatever the module builtins of Python contains. All names of elements can be written in scripts, and a page written with them is rendered to its markup.", "quantifier": "all names, all lists of words, all attributes of modules, all pages", "why_tests_cant": "The tables have 246 entries and tests use few of them; that there are no other tags cannot be tested.", "anchors": ["src/hypertag/std/html.py:_HTML_TAGS_VOID", "src/hypertag/std/html.py:_HTML_TAGS_NONVOID", "src/hypertag/std/html.py:_create", "src/hypertag/std/builtins.py:register", "src/hypertag/std/registry.py:Registry", "src/hypertag/core/run_html.py:HyperHTML.BUILTINS", "src/hypertag/core/runtime.py:Runtime.import_builtins"]}
{"id": "C122", "title": "A comment in the text of a script makes no difference", "statement": "A comment is put above a script, below it, or between two scripts: a line that begins with # or --, followed by any text, maybe with indented lines of text under it. Whatever the text is, with open quotes, brackets or words of operators, all other lines are loaded as the same statements as without the comment; only the positions of definitions below the comment, which are their identities, are moved by its length. If there are no definitions below it, the script cannot be told apart from the one without the comment: the same faults are found, there are the same slots and exported symbols, and the same nodes are made, with the same values or the same error. The first script is joinable: its first line is not indented, its last line is not blank, and quotes after a letter r are closed in their lines.", "quantifier": "all scripts and all comments on the top level", "why_tests_cant": "All texts of comments and all scripts around them.", "anchors": ["src/hypertag/core/grammar.py:grammar", "src/hypertag/core/ast.py:Grammar.preprocess", "src/hypertag/core/ast.py:NODES.xblock_comment", "src/hypertag/core/ast.py:NODES.xblock.translate"]}
{"id": "C123", "title": "Tags called as functions return what is rendered from nodes", "statement": "A tag may be called as a function, with the text of its body as the first argument and attributes as the others. Nested calls, where the body is a concatenation of texts and of other calls, return exactly the text that is rendered from the nodes with the same tags, attributes and texts, to any depth. If such a call of standard tags raises an exception, the nodes cannot be rendered, either. Without a body, with None and with an empty text the result is the same, and the body may be given by the keyword body_string instead. Keyword attributes called self or body_string cannot be given in a call.", "quantifier": "all tags including user-defined ones, all nestings of calls, all texts and attributes", "why_tests_cant": "All nestings; the two ways are implemented separately.", "anchors": ["src/hypertag/core/tag.py:Tag.__call__", "src/hypertag/core/tag.py:Tag.expand", "src/hypertag/core/tag.py:Markup.expand", "src/hypertag/core/dom.py:DOM.render", "src/hypertag/core/dom.py:DOM.Text"]}
{"id": "C124", "title": "The module of Django's filters has exactly the filters of Django", "statement": "Whatever filters a version of Django has, the module hypertag.django.filters contains each standard filter and each filter of humanize under its name, the standard one if both have the same name, besides only what Python puts into each module; the names that the module uses while it is loaded are removed. A script can import each of them as a variable, and nothing from it as a tag, in whatever order the names are listed. The module can be imported exactly where settings of Django were not configured before; names of filters differ from the four names that the module uses itself.", "quantifier": "all sets of filters, all initial contents of a module", "why_tests_cant": "The filters differ between versions of Django; tests use two of them.", "anchors": ["src/hypertag/django/filters.py:__register_default__", "src/hypertag/django/filters.py:__register_humanize__", "src/hypertag/core/runtime.py:PyModule.__init__"]}
{"id": "C125", "title": "A variable that is not mentioned makes no difference", "statement": "A line of a script, on the top level, sets a variable to a constant: a text, a number, True, False or None. The variable is new, neither a global one nor assigned above, and not mentioned below. Without this line, where the blank lines above it stay, the same faults are found; when there are none, the same nodes are made with the same contents, or the same exception is raised, whatever Python does, and the same symbols are exported with the same values, except for the variable itself. Slots of all other variables and hypertags below may be numbered in another way, which makes no difference.", "quantifier": "all scripts, all places on the top level, all constants, all globals and behaviours of Python", "why_tests_cant": "All scripts; the numbering of slots is different in both.", "anchors": ["src/hypertag/core/ast.py:NODES.xblock_assign.analyse", "src/hypertag/core/ast.py:NODES.xblock_assign.translate", "src/hypertag/core/ast.py:NODES.variable.analyse", "src/hypertag/core/structs.py:Slot"]}
{"id": "C126", "title": "An import whose symbols are not mentioned makes no difference", "statement": "A line of a script, on the top level, imports symbols from a module, by their names, under new names, or all public ones, or takes them from the context. None of the symbols that it brings is mentioned below, and the module and the symbols exist; there are no context blocks below an import from a module, where they are not allowed. Without this line, where the blank lines above it stay, the same faults are found; when there are none, the same nodes are made with the same contents, or the same exception is raised, whatever Python does, and the same symbols are exported with the same values, except for the imported ones. This holds although an import takes a new slot for each symbol, so that all variables and hypertags below are numbered in another way, and although it may redefine symbols from above, as long as these are not mentioned below.", "quantifier": "all scripts, all places on the top level, all modules, all import lists, all globals and behaviours of Python", "why_tests_cant": "All scripts and modules; the number of symbols that import * brings is not limited.", "anchors": ["src/hypertag/core/ast.py:NODES.xblock_import.analyse", "src/hypertag/core/ast.py:NODES.xwild_import.analyse", "src/hypertag/core/ast.py:NODES.xname_import.analyse", "src/hypertag/core/ast.py:NODES.xwild_import.translate", "src/hypertag/core/ast.py:NODES.xname_import.translate", "src/hypertag/core/ast.py:NODES.xcntx_import.analyse", "src/hypertag/core/structs.py:Slot"]}
{"id": "C127", "title": "A block whose conditions are never true makes no difference", "statement": "A block if on the top level of a script, with any number of elif clauses and without else, has conditions that are constants and false: None, False or empty texts. The same holds for a loop while without else and with such a condition. Whatever is in its bodies -- divisions by zero, loops without an end, unpacking of wrong values -- as long as it passes analysis, contains no definitions, and does not assign symbols that are mentioned below: without this block, where the blank lines above it stay, the same faults are found; when there are none, the same nodes are made with the same contents, or the same exception is raised, whatever Python does, and the same symbols are exported with the same values, except for those that the block would assign. Variables of the block take slots, so that those below are numbered in another way.", "quantifier": "all scripts, all places on the top level, all bodies of the block, all globals and behaviours of Python", "why_tests_cant": "All scripts and all bodies that are not executed.", "anchors": ["src/hypertag/core/ast.py:NODES.xblock_if._select_branch", "src/hypertag/core/ast.py:NODES.xblock_while.translate", "src/hypertag/core/ast.py:NODES.control_block._analyse_branches", "src/hypertag/core/ast.py:NODES.xblock.translate", "src/hypertag/core/structs.py:Slot"]}
{"id": "C128", "title": "The order of declarations that do not mention each other makes no difference", "statement": "Any number of blocks stand one below the other on the top level of a script, each of which imports symbols from a module or defines a hypertag. None of them mentions a symbol that another one declares, in default values or in its body, and no two declare the same symbol. When they are put in any other order, where the blank lines above each place stay, the same faults are found below them; when there are none, the same nodes are made with the same contents, or the same exception is raised, whatever Python does, and the same symbols are exported with the same values, maybe in another order. The script below may mention all of their symbols; those have other slots.", "quantifier": "all scripts, all places on the top level, all imports and definitions, all globals and behaviours of Python", "why_tests_cant": "All scripts; both orders use different slots for the same symbols.", "anchors": ["src/hypertag/core/ast.py:NODES.xblock_def.analyse", "src/hypertag/core/ast.py:NODES.xblock_def.translate", "src/hypertag/core/ast.py:NODES.xblock_import.analyse", "src/hypertag/core/ast.py:NODES.xwild_import.translate", "src/hypertag/core/ast.py:NODES.xname_import.translate", "src/hypertag/core/structs.py:Slot"]}
