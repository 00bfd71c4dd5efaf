import Verif.Model.Machine

/-
Operations on DOM node objects that the translator uses, dom.py:284-331, 415-430. A `DOM` object is the
list of references to its nodes.
-/

namespace Verif
open Py

section
variable {P X W : Type}

def readNode (r : Ref) : Comp P X W (DNode P) := fun M => (.ok (M.mem.nodes r), M)

def writeNode (r : Ref) (n : DNode P) : Comp P X W Unit := fun M =>
  (.ok (), { M with mem := { M.mem with nodes := fun q => if q = r then n else M.mem.nodes q } })

/-- Creation of a new object. -/
def allocNode (n : DNode P) : Comp P X W Ref := fun M =>
  (.ok M.mem.next, { M with mem := { M.mem with
    nodes := fun q => if q = M.mem.next then n else M.mem.nodes q, next := M.mem.next + 1 } })

/-- `for r in rs: f(r)`. -/
def forRefs (f : Ref → Comp P X W Unit) : List Ref → Comp P X W Unit
  | [] => pure ()
  | r :: rs => do
    f r
    forRefs f rs

/-- `node.relative_indent(parent_indent)`, dom.py:319-330. The first argument bounds the depth of the
recursion. -/
def relativeIndent : Nat → Str → Ref → Comp P X W Unit
  | 0, _, _ => Comp.timeout
  | k + 1, parent, r => do
    let n ← readNode r
    match n.indent with
    | .none => forRefs (relativeIndent k parent) n.body
    | some ind =>
      if ind.take 1 = ['\n'] then
        if startsWith ind parent then
          writeNode r { n with indent := some (ind.drop parent.length) }
        else Comp.raise .assertion
      else pure ()

/-- The number of node objects. -/
def countNodes : Comp P X W Nat := fun M => (.ok M.mem.next, M)

/-- The second part of `set_indent`, dom.py:315-317. -/
def relativeChildren (ind : Option Str) (body : List Ref) : Comp P X W Unit :=
  match ind with
  | .none => pure ()
  | some i => do
    let k ← countNodes
    forRefs (relativeIndent (k + 1) i) body

/-- `node.set_indent(indent)`: dom.py:309-317 and, in `DOM.Text`, 429-430. -/
def setIndentNode (ind : Option Str) (r : Ref) : Comp P X W Unit := do
  let n ← readNode r
  writeNode r { n with indent := ind }
  match n.cls with
  | .text _ => pure ()
  | _ => relativeChildren ind n.body

/-- `dom.set_indent(indent)`, dom.py:132-134. -/
def setIndent (ind : Str) (dom : List Ref) : Comp P X W Unit := forRefs (setIndentNode (some ind)) dom

/-- `node.set_outline(outline)`, dom.py:306-307. -/
def setOutline (o : Bool) (r : Ref) : Comp P X W Unit := do
  let n ← readNode r
  writeNode r { n with outline := o }

/-- `DOM.Text(text, indent = indent)`, dom.py:423-424. -/
def newText (s : Str) (ind : Option Str) : Comp P X W Ref := allocNode { cls := .text s, indent := ind }

/-- `DOM.Node(body, indent, tag = .., attrs = .., kwattrs = ..)` or `DOM.Root(..)`, dom.py:284-294. -/
def newNode (cls : NodeClass) (body : List Ref) (ind : Option Str) (tag : Option (NodeTag P))
    (attrs : Option (List (Val P))) (kw : Option (List (Str × Val P))) : Comp P X W Ref := do
  let r ← allocNode { cls := cls, tag := tag, attrs := attrs, kwattrs := kw, body := body, indent := ind }
  relativeChildren ind body
  return r

end
end Verif
