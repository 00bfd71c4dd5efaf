import Verif.Model.NodeOps

/-! The tree of nodes that an object on the heap stands for. -/

namespace Verif.Spec
open Verif.Py

section
variable {P : Type} (tagOf : P → TagObj) (strOf : Val P → Str)

/-- The tag of a node, given the tags that are external objects. -/
def tagObj : NodeTag P → TagObj
  | .ext p => tagOf p
  | .native _ => .native []
  | .null => .null

/-- A value of an attribute, as `Markup` distinguishes it. -/
def attrVal : Val P → AttrVal
  | .bool b => .bool b
  | .str s => .obj s
  | v => .obj (strOf v)

/-- A node with the given nodes in its body. -/
def toNode (d : DNode P) (body : List Node) : Node :=
  .mk d.cls (d.tag.map (tagObj tagOf)) (d.attrs.map (fun l => l.map (attrVal strOf)))
    (d.kwattrs.map (fun l => l.map (fun a => (a.1, attrVal strOf a.2)))) body d.outline d.indent

mutual
/-- The object `r` is the root of the tree `n`. -/
inductive Unfolds (f : Ref → DNode P) : Ref → Node → Prop
  | mk {r : Ref} {ns : List Node} : UnfoldsAll f (f r).body ns → Unfolds f r (toNode tagOf strOf (f r) ns)
/-- The same for a list of objects. -/
inductive UnfoldsAll (f : Ref → DNode P) : List Ref → List Node → Prop
  | nil : UnfoldsAll f [] []
  | cons {r : Ref} {n : Node} {rs : List Ref} {ns : List Node} : Unfolds f r n → UnfoldsAll f rs ns →
      UnfoldsAll f (r :: rs) (n :: ns)
end

end
end Verif.Spec
