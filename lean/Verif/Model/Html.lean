import Verif.Model.Text

/-
HTML escaping, attribute quoting and the markup tags:
`src/hypertag/std/html.py`, `src/hypertag/core/tag.py`, CPython `xml.sax.saxutils`.
-/

namespace Verif
open Py

/-- `html_escape(text)`, std/html.py:14-18: three successive `replace` calls. -/
def htmlEscape (text : Str) : Str :=
  replace (replace (replace text ['&'] (s!!"&amp;")) ['>'] (s!!"&gt;")) ['<'] (s!!"&lt;")

/-- `xml.sax.saxutils.escape(data, entities)` with the entities that `quoteattr` adds
(`\n`, `\r`, `\t`), in this order. -/
def saxEscape (data : Str) : Str :=
  let d := replace data ['&'] (s!!"&amp;")
  let d := replace d ['>'] (s!!"&gt;")
  let d := replace d ['<'] (s!!"&lt;")
  let d := replace d ['\n'] (s!!"&#10;")
  let d := replace d ['\r'] (s!!"&#13;")
  replace d ['\t'] (s!!"&#9;")

/-- `xml.sax.saxutils.quoteattr(data)` (imported at tag.py:2). -/
def quoteattr (data : Str) : Str :=
  let d := saxEscape data
  if contains d '"' then
    if contains d '\'' then ['"'] ++ replace d ['"'] (s!!"&quot;") ++ ['"']
    else ['\''] ++ d ++ ['\'']
  else ['"'] ++ d ++ ['"']

/-- A value of a keyword attribute as `Markup._render_attr` distinguishes it (tag.py:119-128):
the objects `True` and `False`, or any other object, represented by its `str(value)`. -/
inductive AttrVal where
  | bool (b : Bool)
  | obj (s : Str)
  deriving DecidableEq, Repr

/-- `Markup.mode`, tag.py:87. -/
inductive Mode where
  | html
  | xhtml
  deriving DecidableEq, Repr

/-- `Markup._render_attr`, tag.py:117-137. `none` is Python's `None` (attribute removed). -/
def renderAttr (mode : Mode) : Str × AttrVal → Option Str
  | (name, .bool true) =>
    match mode with
    | .html => some name
    | .xhtml => some (name ++ ['=', '"'] ++ name ++ ['"'])
  | (_, .bool false) => none
  | (name, .obj s) => some (name ++ ['='] ++ quoteattr s)

/-- Exceptions raised while rendering a DOM. `assertion` stands for a failed `assert`. -/
inductive RenderErr where
  | typeError
  | voidTag
  | assertion
  | external (code : Nat)
  deriving DecidableEq, Repr

/-- `' '.join([name] + list(filter(None, map(self._render_attr, kwattrs.items()))))`,
tag.py:102-103. `filter(None, ...)` drops `None` and also empty strings. -/
def tagHead (mode : Mode) (name : Str) (kw : List (Str × AttrVal)) : Str :=
  join [' '] (name :: (kw.filterMap (renderAttr mode)).filter (fun s => !s.isEmpty))

/-- `Markup._expand`, tag.py:99-115; `body` is the outcome of `body.render()`. -/
def markupExpand' (void : Bool) (mode : Mode) (name : Str) (body : Except RenderErr Str)
    (kw : List (Str × AttrVal)) : Except RenderErr Str := do
  let tag := tagHead mode name kw
  let body ← body
  if void then
    if body ≠ [] then throw .voidTag
    else return ['<'] ++ tag ++ (s!!" />")
  else
    let nl := if body.take 1 = ['\n'] then ['\n'] else []
    return (['<'] ++ tag ++ ['>']) ++ body ++ nl ++ ((s!!"</") ++ name ++ ['>'])

/-- `Markup.expand`, tag.py:94-97. -/
def markupExpand (void : Bool) (mode : Mode) (name : Str) (body : Except RenderErr Str)
    (attrs : List AttrVal) (kw : List (Str × AttrVal)) : Except RenderErr Str :=
  if attrs ≠ [] then throw .typeError else markupExpand' void mode name body kw

/-- `CustomTag.expand`, std/html.py:65-70. Simplification: `attrs[0]` is used as a tag name, which
is a `str` in any useful call; a non-string would fail in `' '.join`, modelled as `typeError`. -/
def customExpand (body : Except RenderErr Str) (attrs : List AttrVal)
    (kw : List (Str × AttrVal)) : Except RenderErr Str :=
  match attrs with
  | [] => throw .typeError
  | [.obj name] => markupExpand' false .html name body kw
  | [.bool _] => throw .typeError
  | _ :: _ :: _ => throw .typeError

/-- `comment.expand`, std/html.py:86-94. -/
def commentExpand (body : Except RenderErr Str) (attrs : List AttrVal)
    (kw : List (Str × AttrVal)) : Except RenderErr Str := do
  if attrs ≠ [] ∨ kw ≠ [] then throw .typeError
  let body ← body
  let nl := if body.take 1 = ['\n'] then ['\n'] else []
  return (s!!"<!--") ++ body ++ nl ++ (s!!"-->")

/-- `doctype(text, value)`, std/builtins.py:21-22. -/
def doctype (_text value : Str) : Str := (s!!"<!DOCTYPE ") ++ value ++ ['>']

end Verif
