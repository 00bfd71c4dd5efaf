import Verif.Model.Rewrite
import Verif.Model.Escapes
import Verif.Model.Script

/-
Initialization of nodes: `node._setup_all`, `src/hypertag/nifty/parsing.py:191-194`, and the methods
`setup` of the node classes, `src/hypertag/core/ast.py`. They turn the rewritten tree into the
statements and expressions of `Model/Script.lean` and `Model/Expr.lean`.
-/

namespace Verif
open Py

/-- Exceptions of `setup`: a failed `assert`, a `SyntaxErrorEx`, an error of `decode_escapes`.
`malformed` stands for a tree whose nodes have children of types that the grammar does not produce; the
code would fail, then or later, in some other way. -/
inductive SetupErr where
  | assertion
  | syntax
  | decode
  | malformed
  deriving DecidableEq, Repr

/-- An attribute of a tag occurrence or of a hypertag definition, ast.py:1211-1263. -/
structure AttrNode where
  name : Option Str
  expr : Option Expr
  body : Bool

/-- A node after `setup()`, by kind.
* `expr root e`: an expression; `root` tells if its class is a subclass of `expression_root`
* `str type value`: a `static` node; `op`: an operator; `neg`, `notKw`: `xneg`, `xnot`
* `qual`: `xqualifier`; `tail`: tail operators; `kwarg`
* `line`, `target`, `attr`, `tag`, `tags`, `item` (of imports), `clause` (`xclause_if`)
* `indent`, `dedent`; `stmt`: any other node -/
inductive Built (P : Type) where
  | expr (root : Bool) (e : Expr)
  | str (type : NT) (value : Str)
  | op (name : Str)
  | neg
  | notKw
  | qual (q : Qual)
  | tail (t : Tail)
  | kwarg (name : Str) (e : Expr)
  | line (l : Line)
  | target (t : Target)
  | attr (a : AttrNode)
  | tag (t : TagExp)
  | tags (ts : List TagExp)
  | item (i : ImportItem P)
  | clause (test : Expr) (body : Option (Stmt P))
  | indent (c : Char)
  | dedent (c : Char)
  | stmt (s : Stmt P)
  | document (children : List (Stmt P))

section
variable {P : Type}

/-- `s.split()`: the words of `s`. `cur` is the current word, reversed. -/
def wordsAux : Str → Str → List Str
  | cur, [] => if cur = [] then [] else [cur.reverse]
  | cur, c :: s =>
    if isSpace c then
      if cur = [] then wordsAux [] s else cur.reverse :: wordsAux [] s
    else wordsAux (c :: cur) s

/-- `' '.join(name.split())`, ast.py:1544. -/
def operatorName (text : Str) : Str := join [' '] (wordsAux [] text)

/-- `expression_root.setup`, ast.py:1317-1320: the qualifier comes from the next sibling. -/
def attachQuals : List (Built P) → List (Built P)
  | .expr true (.root _ e) :: .qual q :: rest =>
    .expr true (.root (some q) e) :: .qual q :: attachQuals rest
  | b :: rest => b :: attachQuals rest
  | [] => []

/-- All of the nodes are expressions. -/
def asExprs : List (Built P) → Except SetupErr (List Expr)
  | [] => .ok []
  | .expr _ e :: bs => do
    let es ← asExprs bs
    return e :: es
  | _ => .error .malformed

/-- Children of `xline_markup` and `xstring_format`: expressions, static texts, and qualifiers, which
have an empty `value` (ast.py:1491-1492). -/
def asParts : List (Built P) → Except SetupErr (List Expr)
  | [] => .ok []
  | .expr _ e :: bs => do
    let es ← asParts bs
    return e :: es
  | .str _ s :: bs => do
    let es ← asParts bs
    return .static s :: es
  | .qual _ :: bs => do
    let es ← asParts bs
    return .static [] :: es
  | _ => .error .malformed

/-- Arguments of a call: keywords and expressions, ast.py:1441-1442. -/
def asArgs : List (Built P) → Except SetupErr (List (Option Str) × List Expr)
  | [] => .ok ([], [])
  | .expr _ e :: bs => do
    let (ns, es) ← asArgs bs
    return (none :: ns, e :: es)
  | .kwarg n e :: bs => do
    let (ns, es) ← asArgs bs
    return (some n :: ns, e :: es)
  | _ => .error .malformed

/-- `self.tail` and `self.qualifier` of `xfactor`, ast.py:1500-1505. -/
def asTails : List (Built P) → Except SetupErr (List Tail × Option Qual)
  | [] => .ok ([], none)
  | [.qual q] => .ok ([], some q)
  | .tail t :: bs => do
    let (ts, q) ← asTails bs
    return (t :: ts, q)
  | _ => .error .malformed

/-- The chain `op1 e1 op2 e2 ..`, ast.py:1559-1570. -/
def asChain : List (Built P) → Except SetupErr (List Str × List Expr)
  | [] => .ok ([], [])
  | .op o :: .expr _ e :: bs => do
    let (os, es) ← asChain bs
    return (o :: os, e :: es)
  | _ => .error .malformed

/-- `not not .. e`, ast.py:1653-1659. -/
def asNots : List (Built P) → Except SetupErr (Nat × Expr)
  | [.expr _ e] => .ok (0, e)
  | .notKw :: bs => do
    let (n, e) ← asNots bs
    return (n + 1, e)
  | _ => .error .malformed

/-- Children of a text block. -/
def asItems : List (Built P) → Except SetupErr (List TextItem)
  | [] => .ok []
  | .line l :: bs => do
    let is ← asItems bs
    return .line l :: is
  | .str .margin s :: bs => do
    let is ← asItems bs
    return .margin s :: is
  | .indent c :: bs => do
    let is ← asItems bs
    return .indent c :: is
  | .dedent c :: bs => do
    let is ← asItems bs
    return .dedent c :: is
  | _ => .error .malformed

/-- Children of a body or of the document. -/
def asStmts : List (Built P) → Except SetupErr (List (Stmt P))
  | [] => .ok []
  | .stmt s :: bs => do
    let ss ← asStmts bs
    return s :: ss
  | .line l :: bs => do
    let ss ← asStmts bs
    return .line l :: ss
  | .str .margin s :: bs => do
    let ss ← asStmts bs
    return .static s :: ss
  | .indent c :: bs => do
    let ss ← asStmts bs
    return .indent c :: ss
  | .dedent c :: bs => do
    let ss ← asStmts bs
    return .dedent c :: ss
  | _ => .error .malformed

/-- Targets of an assignment. -/
def asTargets : List (Built P) → Except SetupErr (List Target)
  | [] => .ok []
  | .target t :: bs => do
    let ts ← asTargets bs
    return t :: ts
  | _ => .error .malformed

/-- Tags of a structural block. -/
def asTags : List (Built P) → Except SetupErr (List TagExp)
  | [] => .ok []
  | .tag t :: bs => do
    let ts ← asTags bs
    return t :: ts
  | _ => .error .malformed

/-- Items of an import. -/
def asItemsOf : List (Built P) → Except SetupErr (List (ImportItem P))
  | [] => .ok []
  | .item i :: bs => do
    let is ← asItemsOf bs
    return i :: is
  | _ => .error .malformed

/-- The loop of `xtag_expand.setup`, ast.py:1152-1160. -/
def collectAttrs : List (Built P) → List Expr → List (Str × Expr) →
    Except SetupErr (List Expr × List (Str × Expr))
  | [], unnamed, named => .ok (unnamed, named)
  | .attr ⟨none, some e, _⟩ :: bs, unnamed, named =>
    if named ≠ [] then .error .syntax else collectAttrs bs (unnamed ++ [e]) named
  | .attr ⟨some n, some e, _⟩ :: bs, unnamed, named => collectAttrs bs unnamed (named ++ [(n, e)])
  | _, _, _ => .error .malformed

/-- Attributes of a definition, and its body, ast.py:564-567. -/
def splitDef : List (Built P) → Except SetupErr (List (AttrDef × Bool) × Stmt P)
  | [.stmt b] => .ok ([], b)
  | .attr ⟨some n, e, body⟩ :: bs => do
    let (as, b) ← splitDef bs
    return ((⟨n, e, none⟩, body) :: as, b)
  | _ => .error .malformed

/-- `xblock_def.setup`, ast.py:564-589. The identity of the node is its position. -/
def setupDef (pos : Nat) (name : Str) (rest : List (Built P)) : Except SetupErr (Stmt P) := do
  let (as, body) ← splitDef rest
  if ¬ (as.map (fun a => a.1.name)).Nodup then .error .syntax
  else
    match as with
    | (a, true) :: as => return .defn pos name none (some a) (as.map Prod.fst) body
    | as => return .defn pos name none none (as.map Prod.fst) body

/-- `set_inplace`, ast.py:1040-1041, 1421-1425; `is_augmented`, 1036-1038. -/
def setInplace : Target → Except SetupErr Target
  | .many [.var n _ r w] => .ok (.many [.var n true r w])
  | _ => .error .syntax

/-- `xblock_assign.setup`, ast.py:1007-1023. -/
def setupAssign : List (Built P) → Except SetupErr (Stmt P)
  | [.target t, .expr _ e] => .ok (.assign t none e)
  | [.target t, .expr _ e, .qual _] => .ok (.assign t none e)
  | [.target t, .op o, .expr _ e] => do
    let t ← setInplace t
    return .assign t (some o) e
  | [.target t, .op o, .expr _ e, .qual _] => do
    let t ← setInplace t
    return .assign t (some o) e
  | _ => .error .malformed

/-- The clauses of an `if` block, ast.py:878-883. -/
def splitClauses : List (Built P) →
    Except SetupErr (List (Expr × Option (Stmt P)) × Option (Stmt P))
  | [] => .ok ([], none)
  | [.stmt s] => .ok ([], some s)
  | .clause e b :: bs => do
    let (cs, els) ← splitClauses bs
    return ((e, b) :: cs, els)
  | _ => .error .malformed

/-- `self.column`, parsing.py:163-166: `len(prefix) - prefix.rfind('\n')` of the text before the
node. -/
def columnAt (full : Str) (pos : Nat) : Nat :=
  ((full.take pos).reverse.takeWhile (· != '\n')).length + 1

/-- The value of `xescape`, ast.py:1804-1807. -/
def setupEscape : Str → Except SetupErr Str
  | [a, b] => if a = b then .ok [a] else .error .malformed
  | _ => .error .malformed

/-- `setup()` of one expression node. -/
def setupExpr (names : Str → Option Char) (type : NT) (text : Str) (cs : List (Built P)) :
    Except SetupErr (Built P) :=
  match type with
  -- ast.py:1311-1338
  | .expr | .expr_var | .expr_factor | .expr_strict | .expr_augment | .expr_bitwise =>
    match cs with
    | [.expr _ e] => .ok (.expr true (.root none e))
    | _ => .error .malformed
  | .tag_use => .ok (.expr false (.tagUse text none))                          -- 1345-1346
  | .var_use => .ok (.expr false (.varUse (if text.head? = some '$' then text.drop 1 else text) none))
                                                                               -- 1379-1382
  | .call => do                                                                -- 1435-1445
    let (ns, es) ← asArgs cs
    return .tail (.call ns es)
  | .partial_call => do                                                        -- 1447-1452
    let (ns, es) ← asArgs cs
    return .tail (.partialCall ns es)
  | .kwarg =>                                                                  -- 1270-1274
    match cs with
    | [.str .name_id n, .expr _ e] => .ok (.kwarg n e)
    | _ => .error .malformed
  | .slice_value =>                                                            -- 1454-1458
    match cs with
    | [] => .ok (.expr false .sliceNone)
    | [.expr _ e] => .ok (.expr false e)
    | _ => .error .malformed
  | .index => do                                                               -- 1460-1480
    let es ← asExprs cs
    return .tail (.index es)
  | .member =>                                                                 -- 1482-1489
    match cs with
    | [.str .name_id n] => .ok (.tail (.member n))
    | _ => .error .malformed
  | .qualifier => .ok (.qual (if text = ['?'] then .opt else .obl))            -- 1491, 1505, 1320
  | .factor | .factor_var | .factor_strict | .factor_filt | .filter =>         -- 1500-1505
    match cs with
    | .expr _ a :: rest => do
      let (ts, q) ← asTails rest
      return .expr false (.factor a ts q)
    | _ => .error .malformed
  -- 1525-1554
  | .op_multiplic | .op_additive | .op_power | .op_shift | .op_comp => .ok (.op (operatorName text))
  | .op_inplace => .ok (.op text)
  | .neg => .ok .neg
  | .not => .ok .notKw
  | .pow_expr | .term | .shift_expr | .comparison =>                           -- 1556-1584, 1649
    match cs with
    | .expr _ h :: rest => do
      let (os, es) ← asChain rest
      return .expr false (.chain false h os es)
    | _ => .error .malformed
  | .arith_expr =>                                                             -- 1585-1596
    match cs with
    | .neg :: .expr _ h :: rest => do
      let (os, es) ← asChain rest
      return .expr false (.chain true h os es)
    | .expr _ h :: rest => do
      let (os, es) ← asChain rest
      return .expr false (.chain false h os es)
    | _ => .error .malformed
  | .concat_expr => do                                                         -- 1598-1610
    let es ← asExprs cs
    return .expr false (.concat es)
  | .and_expr | .xor_expr | .or_expr =>                                        -- 1622-1637
    match cs with
    | .expr _ h :: rest => do
      let es ← asExprs rest
      let op : Str := if type = .and_expr then ['&'] else if type = .xor_expr then ['^'] else ['|']
      return .expr false (.bits op h es)
    | _ => .error .malformed
  | .pipeline =>                                                               -- 1638-1646
    match cs with
    | .expr _ h :: rest => do
      let es ← asExprs rest
      return .expr false (.pipeline h es)
    | _ => .error .malformed
  | .not_test => do                                                            -- 1653-1659
    let (n, e) ← asNots cs
    return .expr false (.notTest n e)
  | .and_test =>                                                               -- 1661-1669
    match cs with
    | .expr _ h :: rest => do
      let es ← asExprs rest
      return .expr false (.andTest h es)
    | _ => .error .malformed
  | .or_test =>                                                                -- 1670-1678
    match cs with
    | .expr _ h :: rest => do
      let es ← asExprs rest
      return .expr false (.orTest h es)
    | _ => .error .malformed
  | .ifelse_test =>                                                            -- 1680-1691
    match cs with
    | [.expr _ x, .expr _ t] => .ok (.expr false (.ifElse x t none))
    | [.expr _ x, .expr _ t, .expr _ y] => .ok (.expr false (.ifElse x t (some y)))
    | _ => .error .malformed
  | .list => do                                                                -- 1708
    let es ← asExprs cs
    return .expr false (.list es)
  | .tuple | .expr_tuple => do                                                 -- 1712-1717
    let es ← asExprs cs
    return .expr false (.tuple es)
  | .set => do                                                                 -- 1719
    let es ← asExprs cs
    return .expr false (.set es)
  | .dict => do                                                                -- 1723
    let es ← asExprs cs
    return .expr false (.dict es)
  | .string_format => do                                                       -- 1732
    let es ← asParts cs
    return .expr false (.format es)
  | .string_raw => .ok (.expr false (.strLit ((text.drop 2).dropLast)))        -- 1747-1749
  | .number => .ok (.expr false (.number text))                                -- 1751-1758
  | .boolean => .ok (.expr false (.boolean (text = s!!"True")))                -- 1760-1762
  | .none => .ok (.expr false .noneLit)                                        -- 1764-1766
  | .attr_short_lit => .ok (.expr false (.strLit text))                        -- 1768
  -- static nodes, 1771-1807
  | .path_import | .symbol | .name_id | .name_xml | .text | .margin | .dedent | .append =>
    .ok (.str type text)
  | .text_quot1 | .text_quot2 =>
    match decodeEscapes names text with
    | some s => .ok (.str type s)
    | none => .error .decode
  | .margin_out => .ok (.str type text.dropLast)
  | .escape => do
    let s ← setupEscape text
    return .str type s
  | _ => .error .malformed

/-- `setup()` of one node; expressions and static nodes are in `setupExpr`. `full` is the text given
to the parser. -/
def setup (names : Str → Option Char) (full : Str) (type : NT) (pos : Nat) (text : Str)
    (cs : List (Built P)) : Except SetupErr (Built P) :=
  match type with
  -- 1814-1841
  | .indent_s => .ok (.indent ' ')
  | .indent_t => .ok (.indent '\t')
  | .dedent_s => .ok (.dedent ' ')
  | .dedent_t => .ok (.dedent '\t')
  -- lines, 1083-1109
  | .line_verbat => .ok (.line (.verbat text))
  | .line_markup => do
    let ps ← asParts cs
    return .line (.markup ps)
  | .line_normal =>
    match cs with
    | [.line (.markup ps)] => .ok (.line (.normal ps))
    | _ => .error .malformed
  -- text blocks, 464-507
  | .block_verbat | .block_normal | .block_markup => do
    let is ← asItems cs
    return .stmt (.text (columnAt full pos) is)
  | .block_comment => .ok (.stmt .comment)
  | .block_embed =>                                                            -- 513-514
    match cs with
    | [.expr _ e] => .ok (.stmt (.embed e))
    | _ => .error .malformed
  -- targets, 1035-1064, 1416-1425
  | .var_def =>
    .ok (.target (.var (if text.head? = some '$' then text.drop 1 else text) false none none))
  | .targets => do
    let ts ← asTargets cs
    return .target (.many ts)
  -- tags, 1114-1209
  | .null => .ok (.tag .null)
  | .tag_expand =>
    match cs with
    | .str .name_id n :: rest => do
      let (u, k) ← collectAttrs rest [] []
      return .tag (.tag n none u k)
    | cs => do
      let (u, k) ← collectAttrs cs [] []
      return .tag (.tag (s!!"div") none u k)
  | .tags_expand => do
    let ts ← asTags cs
    return .tags ts
  | .pass => .ok (.stmt .pass)
  -- attributes, 1230-1263
  | .attr_body =>
    match cs with
    | [.str .name_id n] => .ok (.attr ⟨some n, none, true⟩)
    | _ => .error .malformed
  | .attr_def =>
    match cs with
    | [.str .name_id n] => .ok (.attr ⟨some n, none, false⟩)
    | [.str .name_id n, .expr _ e] => .ok (.attr ⟨some n, some e, false⟩)
    | [.str .name_id _, .expr _ _, .qual _] => .error .assertion
    | _ => .error .malformed
  | .attr_named =>
    match cs with
    | [.str .name_xml n, .expr _ e] => .ok (.attr ⟨some n, some e, false⟩)
    | [.str .name_xml n, .expr _ e, .qual _] => .ok (.attr ⟨some n, some e, false⟩)
    | _ => .error .malformed
  | .attr_unnamed =>
    match cs with
    | [.expr _ e] => .ok (.attr ⟨none, some e, false⟩)
    | [.expr _ _, .qual _] => .error .assertion
    | _ => .error .malformed
  | .attr_short =>
    let name : Str := if text.head? = some '.' then s!!"class" else s!!"id"
    match cs with
    | [.expr _ e] => .ok (.attr ⟨some name, some e, false⟩)
    | [.expr _ e, .qual _] => .ok (.attr ⟨some name, some e, false⟩)
    | _ => .error .malformed
  -- imports, 681-688, 722-768
  | .wild_import => .ok (.item (.wild none))
  | .name_import =>
    match cs with
    | [.str .symbol s] => .ok (.item (.name s none none))
    | [.str .symbol s, .str .name_id r] => .ok (.item (.name s (some r) none))
    | _ => .error .malformed
  | .cntx_import =>
    match cs with
    | [.str .symbol s] => .ok (.item (.cntx s none none))
    | [.str .symbol s, .str .name_id r] => .ok (.item (.cntx s (some r) none))
    | _ => .error .malformed
  | .block_import =>
    match cs with
    | .str .path_import p :: rest => do
      let is ← asItemsOf rest
      return .stmt (.imports false (some p) is)
    | _ => .error .malformed
  | .block_context => do
    let is ← asItemsOf cs
    return .stmt (.imports true none is)
  -- blocks
  | .block_struct =>                                                           -- 535-538
    match cs with
    | [.tags ts, .stmt b] => .ok (.stmt (.struct ts b))
    | _ => .error .malformed
  | .block_def =>
    match cs with
    | .str .name_id n :: rest => do
      let s ← setupDef pos n rest
      return .stmt s
    | _ => .error .malformed
  | .block_try => do                                                           -- 852
    let ss ← asStmts cs
    return .stmt (.tryBlock ss)
  | .block_if => do                                                            -- 878-883
    let (cl, els) ← splitClauses cs
    return .stmt (.ifBlock cl els)
  | .clause_if =>                                                              -- 896-899
    match cs with
    | [.expr _ e] => .ok (.clause e none)
    | [.expr _ e, .stmt b] => .ok (.clause e (some b))
    | _ => .error .malformed
  | .clause_else =>                                                            -- 905-908
    match cs with
    | [] => .ok (.stmt (.elseClause none))
    | [.stmt b] => .ok (.stmt (.elseClause (some b)))
    | _ => .error .malformed
  | .block_while =>                                                            -- 910-931
    match cs with
    | [.clause e b] => .ok (.stmt (.whileBlock e b none))
    | [.clause e b, .stmt els] => .ok (.stmt (.whileBlock e b (some els)))
    | _ => .error .malformed
  | .block_for =>                                                              -- 939-945
    match cs with
    | .target t :: .expr _ e :: rest => do
      let ss ← asStmts rest
      return .stmt (.forBlock t e ss)
    | _ => .error .malformed
  | .block_expr =>                                                             -- 981-983
    match cs with
    | [.expr _ e] => .ok (.stmt (.exprBlock e))
    | [.expr _ _, .qual _] => .error .assertion
    | _ => .error .malformed
  | .block_assign => do
    let s ← setupAssign cs
    return .stmt s
  | .body_control | .body_struct => do                                         -- 1069-1081
    let ss ← asStmts cs
    return .stmt (.body ss)
  | .block =>                                                                  -- 436-441
    match cs with
    | [.str .margin_out m, .stmt b] => .ok (.stmt (.xblock m none b))
    | [.str .margin_out m, .str .dedent _, .stmt b] => .ok (.stmt (.xblock m (some .dedent) b))
    | [.str .margin_out m, .str .append _, .stmt b] => .ok (.stmt (.xblock m (some .append) b))
    | _ => .error .malformed
  | .document => do
    let ss ← asStmts cs
    return .document ss
  | type => setupExpr names type text cs

mutual
/-- `node._setup_all()`: children first, parsing.py:191-194. -/
def build (names : Str → Option Char) (full : Str) : RTree → Except SetupErr (Built P)
  | .str _ _ => .error .malformed
  | .node type pos text cs =>
    match buildAll names full cs with
    | .ok bs => setup names full type pos text (attachQuals bs)
    | .error e => .error e
/-- All children. -/
def buildAll (names : Str → Option Char) (full : Str) :
    List RTree → Except SetupErr (List (Built P))
  | [] => .ok []
  | c :: cs =>
    match build names full c with
    | .ok b =>
      match buildAll names full cs with
      | .ok bs => .ok (b :: bs)
      | .error e => .error e
    | .error e => .error e
end

/-- Exceptions of `HypertagAST.__init__`. -/
inductive LoadErr where
  | pre (e : PreErr)
  | parse (e : ParseErr)
  | setup (e : SetupErr)

/-- The part of `HypertagAST.__init__` after the choice of the parser, ast.py:1964-1981: the children
of the document. -/
def loadScript (M : Marks) (U : Uni) (names : Str → Option Char) (script : Str) :
    Except LoadErr (List (Stmt P)) :=
  match preprocess M script with
  | .error e => .error (.pre e)
  | .ok flat =>
    match parse M U flat with
    | .error e => .error (.parse e)
    | .ok t =>
      match buildAll names flat (rewrite 0 t) with
      | .ok [.document ss] => .ok ss
      | .ok _ => .error (.setup .malformed)
      | .error e => .error (.setup e)

end
end Verif
