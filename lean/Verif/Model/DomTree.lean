import Verif.Model.PyStr
import Verif.Model.Dict

/-
Construction, traversal and selection in a DOM: `src/hypertag/core/dom.py`, lines 70-396.

Tree model: a node owns its children. The data of a node that the methods below do not look at is
left abstract: `I` is the type of node data. `copy` and `skip`, where sharing of objects matters, are
in `DomHeap.lean`.
-/

namespace Verif
open Py

/-- A node: its data and the list of nodes of its body (a `DOM`). -/
inductive Tree (I : Type) where
  | mk (info : I) (body : List (Tree I))

namespace Tree
variable {I : Type}
def info : Tree I → I | mk i _ => i
def body : Tree I → List (Tree I) | mk _ b => b
end Tree

/-- What may be passed to `DOM(...)`: a node, `None`, a list/DOM/generator of such, or anything else
(a tuple, a string, ...). -/
inductive Item (N : Type) where
  | node (n : N)
  | none
  | seq (items : List (Item N))
  | other

/-- `TypeErrorEx`. -/
inductive DomErr where
  | type
  deriving DecidableEq, Repr

section Flatten
variable {N : Type}

mutual
/-- One round of the loop of `DOM._flatten`, dom.py:122-129. -/
def flattenItem : Item N → Except DomErr (List N)
  | .none => .ok []
  | .seq items => flatten items
  | .node n => .ok [n]
  | .other => .error .type
/-- `DOM._flatten(nodes)`, dom.py:118-130. -/
def flatten : List (Item N) → Except DomErr (List N)
  | [] => .ok []
  | i :: is => do
    let a ← flattenItem i
    let b ← flatten is
    return a ++ b
end

/-- `DOM(*nodes)`, dom.py:81-84. -/
def domInit (nodes : List (Item N)) : Except DomErr (List (Item N)) :=
  match flatten nodes with
  | .ok ns => .ok (ns.map .node)
  | .error e => .error e

/-- `DOM(*nodes, _strict = False)`, dom.py:84: no flattening. -/
def domInitLoose (nodes : List (Item N)) : List (Item N) := nodes

end Flatten

/-- Index of a slice bound, clamped as Python does (step 1). -/
def sliceBound (len : Nat) (dflt : Nat) : Option Int → Nat
  | Option.none => dflt
  | some i => if i < 0 then (i + len).toNat else min i.toNat len

/-- `l[a:b]`. -/
def pySlice {α} (l : List α) (a b : Option Int) : List α :=
  let lo := sliceBound l.length 0 a
  let hi := sliceBound l.length l.length b
  (l.take hi).drop lo

/-- `dom[a:b]`: `DOM.__getitem__` with a slice, dom.py:93-98; `nodes` is `self.nodes`. -/
def domSlice {N} (nodes : List (Item N)) (a b : Option Int) : List (Item N) :=
  domInitLoose [.seq (pySlice nodes a b)]

/-- Values of the argument `order`. -/
inductive Order where
  | preorder
  | postorder
  deriving DecidableEq, Repr

section Walk
variable {I : Type} (skip : Option (Tree I → Bool)) (order : Order)

/-- `skip is not None and skip(self)`, dom.py:384,394. -/
def skipped (t : Tree I) : Bool :=
  match skip with
  | some f => f t
  | Option.none => false

mutual
/-- `Node.walk(skip, order)`, dom.py:377-389. -/
def walkNode : Tree I → List (Tree I)
  | .mk i b =>
    if skipped skip (.mk i b) then []
    else
      (if order = .preorder then [.mk i b] else []) ++
      walkNodes b ++          -- `if self.body:` an empty body yields nothing anyway
      (if order = .postorder then [.mk i b] else [])
/-- `DOM.walk(skip, order)`, dom.py:154-163. -/
def walkNodes : List (Tree I) → List (Tree I)
  | [] => []
  | t :: ts => walkNode t ++ walkNodes ts
end
end Walk

/-- The heading of a node in a drawing, dom.py:354-360: the tag name or the class name in angle
brackets, then the positional and the keyword attributes. `attrs` and `kwattrs` are the values after
`str()`. -/
def nodeHeading (cls : Str) (tag : Option Str) (attrs : List Str) (kwattrs : List (Str × Str)) : Str :=
  (match tag with
   | some n => n
   | Option.none => ['<'] ++ cls ++ ['>']) ++
  attrs.flatMap (fun a => [' '] ++ a) ++
  kwattrs.flatMap (fun kv => [' '] ++ kv.1 ++ ['='] ++ kv.2)

section TreeDraw
variable {I : Type} (heading : I → Str) (step : Str)

mutual
/-- `Node.tree(indent, step)`, dom.py:351-362. `heading` computes the heading of a node from its data
(`nodeHeading`). -/
def treeNode (indent : Str) : Tree I → Str
  | .mk i b => indent ++ heading i ++ ['\n'] ++ treeNodes (indent ++ step) b
/-- `DOM.tree(indent, step)`, dom.py:139-141. -/
def treeNodes (indent : Str) : List (Tree I) → Str
  | [] => []
  | t :: ts => treeNode indent t ++ treeNodes indent ts
end
end TreeDraw

section Alter
variable {I : Type} (skip : Option (Tree I → Bool)) (transform : Tree I → List (Tree I))

mutual
/-- `node.alter(transform, skip, 'preorder')`, dom.py:391-396. -/
def alterPreNode : Tree I → Tree I
  | .mk i b => if skipped skip (.mk i b) then .mk i b else .mk i (alterPreNodes b).1
/-- `self.nodes` after `dom.alter(transform, skip, 'preorder')`, dom.py:165-186: first the loop over
the nodes (line 178), then the replacement of the list (lines 180-181). The second component is the
list of nodes after the loop. (`transform` is a total function returning a list of nodes; flattening
of a list of nodes does not change it. `if self.body` on line 395: an empty body is unchanged anyway.) -/
def alterPreNodes : List (Tree I) → List (Tree I) × List (Tree I)
  | [] => ([], [])
  | t :: ts =>
    let t' := alterPreNode t
    let r := alterPreNodes ts
    (transform t' ++ r.1, t' :: r.2)
end

mutual
/-- `node.alter(transform, skip, 'postorder')`, dom.py:391-396. The recursion goes through the nodes
produced by `transform`, so it need not terminate; `none` is "the given depth is exceeded". -/
def alterPostNode : Nat → Tree I → Option (Tree I)
  | 0, _ => Option.none
  | n + 1, .mk i b =>
    if skipped skip (.mk i b) then some (.mk i b)
    else (alterPostNodes n b).map (fun b' => .mk i b')
/-- `self.nodes` after `dom.alter(transform, skip, 'postorder')`, dom.py:180-184. -/
def alterPostNodes : Nat → List (Tree I) → Option (List (Tree I))
  | 0, _ => Option.none
  | n + 1, ts => alterPostEach n (ts.flatMap transform)
/-- The loop on line 184. -/
def alterPostEach : Nat → List (Tree I) → Option (List (Tree I))
  | 0, _ => Option.none
  | _ + 1, [] => some []
  | n + 1, t :: ts =>
    match alterPostNode n t, alterPostEach n ts with
    | some t', some ts' => some (t' :: ts')
    | _, _ => Option.none
end

/-- `self.nodes` after `dom.alter(transform, skip, order)`, dom.py:165-186; `none`: the recursion is
deeper than `fuel`. -/
def domAlter (order : Order) (fuel : Nat) (ts : List (Tree I)) : Option (List (Tree I)) :=
  match order with
  | .preorder => some (alterPreNodes skip transform ts).1
  | .postorder => alterPostNodes skip transform fuel ts

end Alter

/-! ### Selection -/

/-- Data of a node, as far as selection and copying look at it: the identity and the name of its tag
object, its positional and keyword attributes (`None` if they were not given at creation), and the
remaining immutable fields (class, text, outline, indent). -/
structure SelInfo (V D : Type) where
  tag : Option (Nat × Str)
  attrs : Option (List V)
  kwattrs : Option (Dict Str V)
  rest : D

/-- The argument `tag` of `select`/`skip`: `None`, a name, or a tag object (identity). -/
inductive TagArg where
  | none
  | name (s : Str)
  | obj (id : Nat)
  deriving DecidableEq, Repr

/-- A normalised constraint: required tag object (`some none`: an object that is no tag), required
name, required attributes; the value `none` is `ATTR_DEFINED`. -/
structure Constr (V : Type) where
  tag : Option (Option Nat)
  name : Option Str
  attrs : Dict Str (Option V)

/-- `_constraint(tag, attr, value, attrs)`, dom.py:236-247. `if tag:` is false for `''`, which then
stays in the role of a tag object. (Tag objects are true: `Tag` defines no `__bool__`/`__len__`.) -/
def constraint {V} (tag : TagArg) (attr : Option (Str × Option V)) (attrs : Dict Str (Option V)) :
    Constr V :=
  let attrs := match attr with
    | some (a, v) => attrs.set a v
    | Option.none => attrs
  match tag with
  | .none => { tag := Option.none, name := Option.none, attrs := attrs }
  | .name s =>
    if s = [] then { tag := some Option.none, name := Option.none, attrs := attrs }
    else { tag := Option.none, name := some s, attrs := attrs }
  | .obj id => { tag := some (some id), name := Option.none, attrs := attrs }

/-- The loop over attributes in `_test`, dom.py:255-257. `a not in None` raises `TypeError`. `ne` is
Python's `!=`. -/
def testAttrs {V} (ne : V → V → Bool) (kwattrs : Option (Dict Str V)) :
    Dict Str (Option V) → Except DomErr Bool
  | [] => .ok true
  | (a, v) :: as =>
    match kwattrs with
    | Option.none => .error .type
    | some kw =>
      match kw.get? a with
      | Option.none => .ok false
      | some w =>
        match v with
        | some v => if ne w v then .ok false else testAttrs ne kwattrs as
        | Option.none => testAttrs ne kwattrs as

/-- `node.tag is not tag` for a tag given as in `Constr.tag`, dom.py:252. -/
def tagDiffers (tag : Option Nat) (node : Option (Nat × Str)) : Bool :=
  match tag, node with
  | some id, some (id', _) => id ≠ id'
  | _, _ => true

/-- `node.tag is None or node.tag.name != name`, dom.py:253. -/
def nameDiffers (name : Str) (node : Option (Nat × Str)) : Bool :=
  match node with
  | some (_, n) => n ≠ name
  | Option.none => true

/-- `_test(node, tag, name, attrs)`, dom.py:249-259. -/
def testNode {V D} (ne : V → V → Bool) (c : Constr V) (i : SelInfo V D) : Except DomErr Bool :=
  if c.tag.any (tagDiffers · i.tag) then .ok false
  else if c.name.any (nameDiffers · i.tag) then .ok false
  else testAttrs ne i.kwattrs c.attrs

/-- The list comprehension in `select`, dom.py:200. -/
def selectLoop {V D} (ne : V → V → Bool) (c : Constr V) :
    List (Tree (SelInfo V D)) → Except DomErr (List (Tree (SelInfo V D)))
  | [] => .ok []
  | t :: ts => do
    let b ← testNode ne c t.info
    let r ← selectLoop ne c ts
    return if b then t :: r else r

/-- `dom.select(tag, attr, value, order, **attrs)`, dom.py:191-215. -/
def select {V D} (ne : V → V → Bool) (dom : List (Tree (SelInfo V D))) (tag : TagArg)
    (attr : Option (Str × Option V)) (attrs : Dict Str (Option V)) (order : Order) :
    Except DomErr (List (Tree (SelInfo V D))) :=
  selectLoop ne (constraint tag attr attrs) (walkNodes Option.none order dom)

end Verif
