import Verif.Model.Rewrite
import Verif.Model.Escapes
import Verif.Model.Setup

/-
Faults of a syntax tree that its grammar does not exclude: what `setup` of the nodes has to reject.
-/

namespace Verif.Spec
open Py

/-- The node is of the given type. -/
def IsNode (n : NT) (c : RTree) : Prop := ∃ p w cs, c = .node n p w cs

/-- Attributes of tag occurrences and of definitions, other than `attr_unnamed`. -/
def NamedAttr (c : RTree) : Prop := IsNode .attr_named c ∨ IsNode .attr_short c ∨ IsNode .attr_def c ∨ IsNode .attr_body c

/-- Operators. Only `op_inplace` is a child of an assignment in the grammar. -/
def Operator (c : RTree) : Prop :=
  IsNode .op_inplace c ∨ IsNode .op_multiplic c ∨ IsNode .op_additive c ∨ IsNode .op_power c ∨ IsNode .op_shift c ∨ IsNode .op_comp c

/-- The left side of an assignment is one variable. -/
def OneVariable : RTree → Prop
  | .node .targets _ _ [.node .var_def _ _ _] => True
  | _ => False

/-- The text of a name that comes first. -/
def leadingName : List RTree → Str
  | .node .name_id _ n _ :: _ => n
  | .node .name_xml _ n _ :: _ => n
  | _ => []

/-- The name of an attribute of a tag or of a definition. -/
def attrName : RTree → Option Str
  | .node .attr_def _ _ cs => some (leadingName cs)
  | .node .attr_body _ _ cs => some (leadingName cs)
  | .node .attr_named _ _ cs => some (leadingName cs)
  | .node .attr_short _ w _ => some (if w.head? = some '.' then s!!"class" else s!!"id")
  | _ => none

/-- Node `c` cannot be set up, and the exception of it. -/
inductive Fault (names : Str → Option Char) : RTree → SetupErr → Prop
  /-- a tag: an unnamed attribute after a named one -/
  | order {p : Nat} {w : Str} {l m r : List RTree} {a b : RTree} : NamedAttr a → IsNode .attr_unnamed b →
      Fault names (.node .tag_expand p w (l ++ a :: (m ++ b :: r))) .syntax
  /-- a definition: two parameters of the same name -/
  | params {p : Nat} {w : Str} {cs : List RTree} : ¬ (cs.filterMap attrName).Nodup → Fault names (.node .block_def p w cs) .syntax
  /-- an assignment `a, b += e` -/
  | inplace {p : Nat} {w : Str} {t : RTree} {cs : List RTree} : (∃ c ∈ cs, Operator c) → ¬ OneVariable t →
      Fault names (.node .block_assign p w (t :: cs)) .syntax
  /-- a qualifier after braces, where no qualifier is expected: `p {x}?`, `% h a={x}?`. No script is known with such a
  `block_expr`: there braces are read as a set -/
  | qualifier {n : NT} {p : Nat} {w : Str} {cs : List RTree} : n = .attr_unnamed ∨ n = .attr_def ∨ n = .block_expr →
      (∃ c ∈ cs, IsNode .qualifier c) → Fault names (.node n p w cs) .assertion
  /-- a text in quotes that is not a Python literal -/
  | escape {n : NT} {p : Nat} {w : Str} {cs : List RTree} : n = .text_quot1 ∨ n = .text_quot2 → decodeEscapes names w = none →
      Fault names (.node n p w cs) .decode

mutual
/-- Nodes of a tree, children before parents. -/
def postorder : RTree → List RTree
  | .str _ _ => []
  | .node n p w cs => postorders cs ++ [.node n p w cs]
def postorders : List RTree → List RTree
  | [] => []
  | c :: cs => postorder c ++ postorders cs
end

/-- `u` is the first faulty node, of fault `e`. -/
def FirstFault (names : Str → Option Char) (us : List RTree) (e : SetupErr) : Prop :=
  ∃ l u r, us = l ++ u :: r ∧ Fault names u e ∧ ∀ v ∈ l, ∀ e', ¬ Fault names v e'

end Verif.Spec
