import Verif.Model.Html

/-
The Document Object Model: `src/hypertag/core/dom.py`, lines 70-433.

Tree model: a node owns its children (no sharing). The heap model, where node objects are mutable
and may be shared, is in `Verif/Model/DomHeap.lean`.
-/

namespace Verif
open Py

/-- Tag objects that occur in a DOM (`DOM.Node.tag`): instances of `Markup` (tag.py:78),
`CustomTag` and `comment` (std/html.py:50,82), `Null` (tag.py:62), `Native` (ast.py:78) and any
other external tag (`TagFunction`, user classes), identified by a number. -/
inductive TagObj where
  | markup (name : Str) (void : Bool) (mode : Mode)
  | custom
  | comment
  | null
  | native (name : Str)
  | ext (name : Str) (id : Nat)
  deriving DecidableEq, Repr

/-- `tag.name`. -/
def TagObj.name : TagObj → Str
  | .markup n _ _ => n
  | .custom => s!!"custom"
  | .comment => s!!"comment"
  | .null => s!!"null"
  | .native n => n
  | .ext n _ => n

/-- The class of a node object: `DOM.Node`, `DOM.Root` or `DOM.Text` (with its text). -/
inductive NodeClass where
  | node
  | root
  | text (s : Str)
  deriving DecidableEq, Repr

/-- A DOM node, dom.py:271-294, 399, 415-424. `body` is the node list of `self.body` (a `DOM`);
in `Text` nodes it is empty because `DOM.Node.__init__` sets `self.body = DOM(None)`.
`attrs`/`kwattrs` are `None` when the creator did not pass them. -/
inductive Node where
  | mk (cls : NodeClass) (tag : Option TagObj) (attrs : Option (List AttrVal))
    (kwattrs : Option (List (Str × AttrVal))) (body : List Node) (outline : Bool)
    (indent : Option Str)

namespace Node

def cls : Node → NodeClass | mk c _ _ _ _ _ _ => c
def tag : Node → Option TagObj | mk _ t _ _ _ _ _ => t
def attrs : Node → Option (List AttrVal) | mk _ _ a _ _ _ _ => a
def kwattrs : Node → Option (List (Str × AttrVal)) | mk _ _ _ k _ _ _ => k
def body : Node → List Node | mk _ _ _ _ b _ _ => b
def outline : Node → Bool | mk _ _ _ _ _ o _ => o
def indent : Node → Option Str | mk _ _ _ _ _ _ i => i

end Node

/-- How a tag object expands, given the outcome of `body.render()`. External tags are a parameter:
`ext id body attrs kwattrs`. (A `TagFunction` created with `dom = True` inspects the DOM itself
rather than its rendering, tag.py:58; such tags are outside the model.) -/
def expandTag (ext : Nat → Except RenderErr Str → List AttrVal → List (Str × AttrVal) →
      Except RenderErr Str)
    (t : TagObj) (body : Except RenderErr Str) (attrs : List AttrVal)
    (kw : List (Str × AttrVal)) : Except RenderErr Str :=
  match t with
  | .markup name void mode => markupExpand void mode name body attrs kw
  | .custom => customExpand body attrs kw
  | .comment => commentExpand body attrs kw
  | .null => body                       -- `Null.expand`, tag.py:67-68
  | .native _ => body                   -- `Native.expand`, ast.py:86-87
  | .ext _ id => ext id body attrs kw

section Render
variable (ext : Nat → Except RenderErr Str → List AttrVal → List (Str × AttrVal) →
  Except RenderErr Str)

/-- The last step of `Node.render`, dom.py:337-342. -/
def applyIndent (indent : Option Str) (text : Str) : Except RenderErr Str :=
  match indent with
  | none => .ok text
  | some ind => if ind.take 1 = ['\n'] then .error .assertion else .ok (addIndent text ind)

/-- `output[1:] if output.startswith('\n') else output`, dom.py:409. -/
def dropLine (output : Str) : Str := if startsWith output ['\n'] then output.drop 1 else output

/-- `self._render_body()`, dom.py:344-349 (override in `DOM.Text`: 432-433), given the outcome of
`self.body.render()`. -/
def renderBody (cls : NodeClass) (tag : Option TagObj) (attrs : Option (List AttrVal))
    (kw : Option (List (Str × AttrVal))) (body : Except RenderErr Str) : Except RenderErr Str :=
  match cls with
  | .text s => .ok s
  | _ =>
    match tag with
    | some t => expandTag ext t body (attrs.getD []) (kw.getD [])
    | none => body

mutual
/-- `node.render()` with dynamic dispatch: `DOM.Node.render`, `DOM.Text` (dom.py:332-349, 432-433)
and the override `DOM.Root.render()` with the default `drop_line=True` (dom.py:402-409). -/
def renderNode : Node → Except RenderErr Str
  | .mk cls tag attrs kw body outline indent => do
    let inner ← renderBody ext cls tag attrs kw (renderNodes body)
    let text ← applyIndent indent ((if outline then ['\n'] else []) ++ inner)
    match cls with
    | .root => return dropLine text
    | _ => return text
/-- `DOM.render`, dom.py:136-137. -/
def renderNodes : List Node → Except RenderErr Str
  | [] => .ok []
  | n :: ns => do
    let s ← renderNode n
    let r ← renderNodes ns
    return s ++ r
end

/-- `DOM.Root.render(drop_line = False)`, dom.py:402-409, on a root without a tag. -/
def renderRootKeep (n : Node) : Except RenderErr Str := do
  let inner ← renderNodes ext n.body
  applyIndent n.indent ((if n.outline then ['\n'] else []) ++ inner)

end Render

end Verif
