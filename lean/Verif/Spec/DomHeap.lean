import Verif.Model.DomHeap
import Verif.Spec.DomTree

/-
What a heap of DOM objects represents, and reachability.
-/

namespace Verif
open Py

section
variable {V D : Type}

/-- References held by an object. -/
def HObj.refs : HObj V D → List Nat
  | .node _ a k b _ => a.toList ++ k.toList ++ b.toList
  | .dom ns => ns
  | .list _ => []
  | .dict _ => []

/-- `y` can be reached from `x` by following references. -/
inductive Reach (h : Heap V D) : Nat → Nat → Prop where
  | refl {x} : Reach h x x
  | step {x y z o} : h[x]? = some o → y ∈ o.refs → Reach h y z → Reach h x z

/-- The list of positional attributes at an optional address. -/
def RepAttrs (h : Heap V D) : Option Nat → Option (List V) → Prop
  | none, none => True
  | some r, some l => h[r]? = some (.list l)
  | _, _ => False

/-- The dict of keyword attributes at an optional address. -/
def RepKw (h : Heap V D) : Option Nat → Option (Dict Str V) → Prop
  | none, none => True
  | some r, some d => h[r]? = some (.dict d)
  | _, _ => False

mutual
/-- The node object at address `r` and the objects it refers to look like the given tree. (Every node
has a `DOM` as its body: `Node.__init__`, dom.py:293. Objects may be shared.) -/
def RepNode (h : Heap V D) : Tree (SelInfo V D) → Nat → Prop
  | .mk i b, r => ∃ a k d ns, h[r]? = some (.node i.tag a k (some d) i.rest) ∧
      RepAttrs h a i.attrs ∧ RepKw h k i.kwattrs ∧ h[d]? = some (.dom ns) ∧ RepNodes h b ns
def RepNodes (h : Heap V D) : List (Tree (SelInfo V D)) → List Nat → Prop
  | [], [] => True
  | t :: ts, n :: ns => RepNode h t n ∧ RepNodes h ts ns
  | _, _ => False
end

/-- The `DOM` object at address `d` looks like the given list of trees. -/
def RepDom (h : Heap V D) (ts : List (Tree (SelInfo V D))) (d : Nat) : Prop :=
  ∃ ns, h[d]? = some (.dom ns) ∧ RepNodes h ts ns

end
end Verif
