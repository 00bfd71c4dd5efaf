import Verif.Model.Parse

/-
Rewriting of the syntax tree of parsimonious: `ParsimoniousTree.rewrite`, `_rewriteNode`,
`src/hypertag/nifty/parsing.py:316-342`, with the configuration of `HypertagAST`,
`src/hypertag/core/ast.py:1912-1936`.
-/

namespace Verif
open Py

/-- A node after rewriting, with `type`, `pos[0]`, the matched text and `children`; `str` is a
`reduced` node (parsing.py:308-313). -/
inductive RTree where
  | node (type : NT) (start : Nat) (text : Str) (children : List RTree)
  | str (start : Nat) (text : Str)

/-- `_ignore_`, ast.py:1917-1918. -/
def isIgnored : NT → Bool
  | .nl | .ws | .space | .gap | .comma | .verbatim | .inline_comment
  | .mark_struct | .mark_verbat | .mark_normal | .mark_markup | .mark_embed | .mark_eval | .mark_def
  | .mark_comment => true
  | _ => false

/-- `_reduce_`, ast.py:1921-1928. -/
def isReduced : NT → Bool
  | .modifier | .block_control | .target | .core_blocks | .tail_blocks | .headline | .body_text
  | .generic_control | .generic_struct
  | .item_import | .rename | .try_long | .try_short | .special_tag | .head_verbat | .head_normal
  | .head_markup
  | .tail_for | .tail_if | .tail_verbat | .tail_normal | .tail_markup | .core_verbat | .core_normal
  | .core_markup
  | .attrs_def | .attrs_val | .attr_val | .value_of_attr | .args | .arg
  | .expr_assign | .embedding | .embedding_braces | .embedding_eval
  | .expr_root | .subexpr | .slice | .subscript | .trailer | .trailer_filt | .atom | .literal
  | .dict_pair
  | .string | .string_quot1 | .string_quot2 => true
  | _ => false

/-- `_compact_`, ast.py:1931-1933. -/
def isCompact : NT → Bool
  | .factor_filt | .factor_strict | .factor_var | .factor | .pow_expr | .term | .arith_expr
  | .shift_expr | .and_expr | .xor_expr | .or_expr | .concat_expr
  | .pipeline | .comparison | .not_test | .and_test | .or_test | .ifelse_test | .expr_tuple
  | .block_struct => true
  | _ => false

/-- The last step of `rewrite`, parsing.py:334-337. -/
def compactNode (n : NT) (start : Nat) (text : Str) (children : List RTree) : RTree :=
  if isCompact n then
    match children with
    | [c] => c
    | cs => .node n start text cs
  else .node n start text children

mutual
/-- `rewrite(astnode)`, parsing.py:316-337. The result is a list, which the caller concatenates
(`flatten`, parsing.py:341). `start` is `astnode.start`. -/
def rewrite (start : Nat) : PTree NT → List RTree
  | .node none _ cs => rewrites start cs
  | .node (some n) t cs =>
    if isIgnored n then []
    else if isReduced n then
      match cs with
      | [] => if t = [] then [] else [.str start t]
      | c :: cs => rewrite start c ++ rewrites (start + c.text.length) cs
    else [compactNode n start t (rewrites start cs)]
/-- `flatten(self.rewrite(c) for c in astnode.children)`, parsing.py:341. -/
def rewrites (start : Nat) : List (PTree NT) → List RTree
  | [] => []
  | c :: cs => rewrite start c ++ rewrites (start + c.text.length) cs
end

end Verif
