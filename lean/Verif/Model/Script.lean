import Verif.Model.Expr

/-
Statement nodes: `src/hypertag/core/ast.py`, lines 354-1264. The tree after parsing, rewriting and
`setup()`; slots are filled by the analysis.
-/

namespace Verif
open Py

/-- Lines of text, ast.py:1092-1109: `xline_verbat`, `xline_normal`, `xline_markup`. -/
inductive Line where
  | verbat (s : Str)
  | normal (parts : List Expr)
  | markup (parts : List Expr)

/-- Children of a text block: lines, margins (`xmargin`, static), `indent`/`dedent` nodes
(ast.py:1814-1841). -/
inductive TextItem where
  | line (l : Line)
  | margin (s : Str)
  | indent (c : Char)
  | dedent (c : Char)

/-- Targets of assignment, ast.py:1035-1064: a variable (`xvar_def`; `read` is set in in-place
assignments) or `xtargets`. -/
inductive Target where
  | var (name : Str) (read : Bool) (slotRead slotWrite : Option Slot)
  | many (ts : List Target)

/-- Occurrence of a tag, ast.py:1114-1202: `xtag_expand` or `xnull`. -/
inductive TagExp where
  | tag (name : Str) (slot : Option Slot) (unnamed : List Expr) (named : List (Str × Expr))
  | null

/-- Formal attribute of a hypertag, `xattr_def`/`xattr_body`, ast.py:1211-1241. -/
structure AttrDef where
  name : Str
  default : Option Expr
  slot : Option Slot

/-- Items of import and context blocks, ast.py:704-768, with the slots (and values) set in analysis. -/
inductive ImportItem (P : Type) where
  | wild (slots : Option (List (Slot × Val P)))
  | name (symbol : Str) (rename : Option Str) (slot : Option (Slot × Val P))
  | cntx (symbol : Str) (rename : Option Str) (slot : Option (Slot × Val P))

/-- Layout modifiers of a block, grammar.py:23-25. -/
inductive Modifier where
  | dedent
  | append
  deriving DecidableEq, Repr

/-- Statement nodes.
* `static`: `xmargin`, ast.py:354-367; `indent`, `dedent`: 1814-1841; `line`: 1083-1109 (headlines)
* `xblock margin modifier block`: 431-462; `margin` is the value of `margin_out` (1792-1801)
* `text lead items`: `block_text`, 464-504; `lead` is its column; `comment`: 505; `embed`: 509
* `struct`: 531; `defn`: `xblock_def`, 553, with the `@body` attribute and the other ones
* `imports`: `xblock_import`, `xblock_context`, 676-768
* `tryBlock`: 852; `ifBlock`: 874 (clauses: tests and bodies); `elseClause`: 905; `whileBlock`: 910;
  `forBlock targets e rest`: 933, `rest` are the optional body and the optional `else` clause;
  `exprBlock`: 973; `assign`: 988
* `body`: 1069-1081; `pass`: 1204 -/
inductive Stmt (P : Type) where
  | static (s : Str)
  | indent (c : Char)
  | dedent (c : Char)
  | line (l : Line)
  | xblock (margin : Str) (modifier : Option Modifier) (block : Stmt P)
  | text (lead : Nat) (items : List TextItem)
  | comment
  | embed (e : Expr)
  | struct (tags : List TagExp) (body : Stmt P)
  | defn (id : DefId) (name : Str) (slot : Option Slot) (bodyAttr : Option AttrDef)
      (attrs : List AttrDef) (body : Stmt P)
  | imports (context : Bool) (path : Option Str) (items : List (ImportItem P))
  | tryBlock (branches : List (Stmt P))
  | ifBlock (clauses : List (Expr × Option (Stmt P))) (els : Option (Stmt P))
  | elseClause (body : Option (Stmt P))
  | whileBlock (test : Expr) (body : Option (Stmt P)) (els : Option (Stmt P))
  | forBlock (targets : Target) (e : Expr) (rest : List (Stmt P))
  | exprBlock (e : Expr)
  | assign (targets : Target) (op : Option Str) (e : Expr)
  | body (children : List (Stmt P))
  | pass

/-- What `expand` needs to know about a hypertag definition. -/
structure DefInfo (P : Type) where
  bodyAttr : Option AttrDef
  attrs : List AttrDef
  body : Stmt P

/-- A document, ast.py:379-422: slots of the global symbols, the children, the top-level symbols. -/
structure Document (P : Type) where
  slotsIn : List (Slot × Val P)
  children : List (Stmt P)
  slotsOut : List (Str × Slot)

end Verif
