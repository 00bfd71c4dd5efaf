import Verif.Model.Dom

/-
Tags called as functions: `Tag.__call__`, `src/hypertag/core/tag.py`, lines 36-43.
-/

namespace Verif
open Py

/-- An argument of a call: `None`, or any other object. -/
inductive CallArg where
  | none
  | val (v : AttrVal)
  deriving DecidableEq, Repr

/-- `text_type(x)`. -/
def AttrVal.str : AttrVal → Str
  | .bool true => s!!"True"
  | .bool false => s!!"False"
  | .obj s => s

/-- The argument as an attribute of an element: `None` is an object as any other, with the text `None`. -/
def CallArg.attr : CallArg → AttrVal
  | .none => .obj (s!!"None")
  | .val v => v

/-- `DOM.Text(text)`, dom.py:423-424. -/
def textNode (s : Str) : Node := .mk (.text s) none none none [] false none

/-- `DOM.Text(text_type(body_string)) if body_string is not None else DOM()`, tag.py:42. A single node and a `DOM` are both rendered by
`render()`. -/
def callBody : CallArg → List Node
  | .none => []
  | .val v => [textNode v.str]

/-- `tag(*args, **kwargs)`: `Tag.__call__(self, body_string = None, *attrs, **kwattrs)`, tag.py:36-43. Python raises `TypeError` if an argument
is given twice, by position and by name; `self` is given by position. -/
def tagCall (ext : Nat → Except RenderErr Str → List AttrVal → List (Str × AttrVal) → Except RenderErr Str)
    (t : TagObj) (args : List CallArg) (kwargs : List (Str × CallArg)) : Except RenderErr Str :=
  let kwattrs := (kwargs.filter (fun p => p.1 != s!!"body_string")).map (fun p => (p.1, p.2.attr))
  if kwargs.any (fun p => p.1 == s!!"self") then .error .typeError
  else match args, kwargs.find? (fun p => p.1 == s!!"body_string") with
    | [], none => expandTag ext t (renderNodes ext (callBody .none)) [] kwattrs
    | [], some p => expandTag ext t (renderNodes ext (callBody p.2)) [] kwattrs
    | a :: as, none => expandTag ext t (renderNodes ext (callBody a)) (as.map CallArg.attr) kwattrs
    | _ :: _, some _ => .error .typeError

end Verif
