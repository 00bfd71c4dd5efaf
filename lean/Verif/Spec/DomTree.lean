import Verif.Model.DomTree

/-
Specifications for traversal and selection in DOM trees.

A node of a forest is addressed by its path: the position of its root in the forest, then the position
of the next ancestor among the children, and so on.
-/

namespace Verif
open Py

abbrev Path := List Nat

section
variable {I : Type}

/-- The descendant of `t` at a relative path (`[]` is `t` itself). -/
def Tree.sub (t : Tree I) : Path → Option (Tree I)
  | [] => some t
  | i :: p =>
    match t.body[i]? with
    | some u => u.sub p
    | none => none

/-- The node of a forest at a path. -/
def nodeAt (ts : List (Tree I)) : Path → Option (Tree I)
  | [] => none
  | i :: p =>
    match ts[i]? with
    | some t => t.sub p
    | none => none

/-- There is a node at the path `p` and neither it nor any of its ancestors satisfies `skip`. -/
def Visible (skip : Tree I → Prop) (ts : List (Tree I)) (p : Path) : Prop :=
  p ≠ [] ∧ ∀ q, q <+: p → q ≠ [] → ∃ u, nodeAt ts q = some u ∧ ¬ skip u

end

/-- Document order, ancestors first. -/
inductive PreLt : Path → Path → Prop where
  | up {i q} : PreLt [] (i :: q)
  | left {i j p q} : i < j → PreLt (i :: p) (j :: q)
  | down {i p q} : PreLt p q → PreLt (i :: p) (i :: q)

/-- Document order, descendants first. -/
inductive PostLt : Path → Path → Prop where
  | up {i p} : PostLt (i :: p) []
  | left {i j p q} : i < j → PostLt (i :: p) (j :: q)
  | down {i p q} : PostLt p q → PostLt (i :: p) (i :: q)

def OrderLt : Order → Path → Path → Prop
  | .preorder => PreLt
  | .postorder => PostLt

/-- `ps` lists exactly the paths that satisfy `vis`, strictly increasing in `lt`. (`PreLt` and
`PostLt` are irreflexive, so no path occurs twice.) -/
structure Listing (lt : Path → Path → Prop) (vis : Path → Prop) (ps : List Path) : Prop where
  mem : ∀ p, p ∈ ps ↔ vis p
  sorted : ps.Pairwise lt

/-- The `skip` argument as a predicate. -/
def SkipProp {I} (skip : Option (Tree I → Bool)) (t : Tree I) : Prop :=
  ∃ f, skip = some f ∧ f t = true

/-- The line of the node at the path `p` in a drawing: indentation of the whole drawing, `step` once
for every proper ancestor, the heading. -/
def drawLine {I} (heading : I → Str) (step indent : Str) (ts : List (Tree I)) (p : Path) : Str :=
  match nodeAt ts p with
  | some t => indent ++ (List.replicate (p.length - 1) step).flatten ++ heading t.info ++ ['\n']
  | none => []

/-! ### Selection -/

section
variable {V D : Type}

/-- The tag constraint. An empty name matches nothing. -/
def TagOk (tag : TagArg) (i : SelInfo V D) : Prop :=
  match tag with
  | .none => True
  | .name s => s ≠ [] ∧ ∃ id, i.tag = some (id, s)
  | .obj id => ∃ n, i.tag = some (id, n)

/-- The attribute requirements: those in `attrs`, and `attr` with `value`, which wins over an
equally named one in `attrs`. `none` as value: the attribute only has to be present. -/
def Required (attr : Option (Str × Option V)) (attrs : Dict Str (Option V)) (a : Str)
    (v : Option V) : Prop :=
  match attr with
  | some (a', v') => (a = a' ∧ v = v') ∨ (a ≠ a' ∧ attrs.get? a = some v)
  | none => attrs.get? a = some v

/-- A node has all required attributes, with the required values. -/
def AttrsOk (ne : V → V → Bool) (attr : Option (Str × Option V)) (attrs : Dict Str (Option V))
    (i : SelInfo V D) : Prop :=
  ∀ a v, Required attr attrs a v →
    ∃ kw w, i.kwattrs = some kw ∧ kw.get? a = some w ∧ ∀ x, v = some x → ne w x = false

/-- A node matches the criteria of `select`/`skip`. -/
def Matches (ne : V → V → Bool) (tag : TagArg) (attr : Option (Str × Option V))
    (attrs : Dict Str (Option V)) (i : SelInfo V D) : Prop :=
  TagOk tag i ∧ AttrsOk ne attr attrs i

/-- Attributes are asked for and the node has the right tag but no dict of attributes (as nodes of
text have): the test of such a node raises TypeError. -/
def Untestable (tag : TagArg) (attr : Option (Str × Option V))
    (attrs : Dict Str (Option V)) (i : SelInfo V D) : Prop :=
  TagOk tag i ∧ (∃ a v, Required attr attrs a v) ∧ i.kwattrs = none

open Classical in
/-- Removal of all subtrees whose root satisfies `P`. -/
noncomputable def prune {I : Type} (P : I → Prop) : List (Tree I) → List (Tree I)
  | [] => []
  | .mk i b :: ts =>
    if P i then prune P ts else .mk i (prune P b) :: prune P ts

end

/-! ### Construction -/

section
variable {N : Type}

inductive Leaf (N : Type) where
  | node (n : N)
  | none
  | other

/-- The leaves of nested sequences, left to right. -/
inductive Leaves : List (Item N) → List (Leaf N) → Prop where
  | nil : Leaves [] []
  | node {n is ls} : Leaves is ls → Leaves (.node n :: is) (.node n :: ls)
  | none {is ls} : Leaves is ls → Leaves (.none :: is) (.none :: ls)
  | other {is ls} : Leaves is ls → Leaves (.other :: is) (.other :: ls)
  | seq {js ks is ls} : Leaves js ks → Leaves is ls → Leaves (.seq js :: is) (ks ++ ls)

/-- The nodes among leaves. -/
def Leaf.nodes : List (Leaf N) → List N
  | [] => []
  | .node n :: ls => n :: Leaf.nodes ls
  | _ :: ls => Leaf.nodes ls

end

/-! ### Transformation -/

section
variable {I : Type} (skip : Tree I → Prop) (f : Tree I → List (Tree I))

mutual
/-- "A list of nodes is replaced with a concatenated list of nodes returned by transform when applied
to each child separately. This is done before recursive calls": the documented `preorder`. -/
inductive TopDown : List (Tree I) → List (Tree I) → Prop where
  | mk {ts us} : TopDownCalls (ts.flatMap f) us → TopDown ts us
/-- The recursive calls: nodes before and after. -/
inductive TopDownCalls : List (Tree I) → List (Tree I) → Prop where
  | nil : TopDownCalls [] []
  | skip {t ts us} : skip t → TopDownCalls ts us → TopDownCalls (t :: ts) (t :: us)
  | call {i b b' ts us} : ¬ skip (.mk i b) → TopDown b b' → TopDownCalls ts us →
      TopDownCalls (.mk i b :: ts) (.mk i b' :: us)
end

mutual
/-- The same "after these calls": the documented `postorder`. -/
inductive BottomUp : List (Tree I) → List (Tree I) → Prop where
  | mk {ts us} : BottomUpCalls ts us → BottomUp ts (us.flatMap f)
/-- The recursive calls: nodes before and after. -/
inductive BottomUpCalls : List (Tree I) → List (Tree I) → Prop where
  | nil : BottomUpCalls [] []
  | skip {t ts us} : skip t → BottomUpCalls ts us → BottomUpCalls (t :: ts) (t :: us)
  | call {i b b' ts us} : ¬ skip (.mk i b) → BottomUp b b' → BottomUpCalls ts us →
      BottomUpCalls (.mk i b :: ts) (.mk i b' :: us)
end

end

/-- The position `i` of a sequence of length `n` is not before the bound; a negative bound counts from the end. -/
def SliceFrom (n i : Nat) : Option Int → Prop
  | none => True
  | some a => if a < 0 then a + n ≤ i else a ≤ i

/-- The position is before the bound. -/
def SliceTo (n i : Nat) : Option Int → Prop
  | none => True
  | some b => if b < 0 then (i : Int) < b + n else (i : Int) < b

end Verif
