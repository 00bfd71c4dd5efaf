import Verif.Model.Dom
import Verif.Spec.Html

/-!
What a reader of the rendered document should see, as a depth-first traversal of the DOM tree.
Uses only the data types of the DOM model, none of its functions.
-/

namespace Verif.Spec
open Verif.Py

/-- Attributes that a reader should see for given keyword attributes. -/
def seenAttrs (mode : Mode) : List (Str × AttrVal) → AttrList
  | [] => []
  | (_, .bool false) :: r => seenAttrs mode r
  | (n, .bool true) :: r =>
    (n, match mode with | .html => none | .xhtml => some n) :: seenAttrs mode r
  | (n, .obj s) :: r => (n, some s) :: seenAttrs mode r

/-- Visible characters of a text, after decoding of entities. -/
def textEvents (s : Str) : List Event :=
  ((decodeText s).filter (fun c => !isSpace c)).map Event.chr

mutual
/-- Events of one node: markup elements emit a start tag, the events of the children and an end
tag; void elements emit one event; other nodes are transparent. -/
def nodeEvents : Node → List Event
  | .mk cls tag attrs kw body _ _ =>
    match cls with
    | .text s => textEvents s
    | _ =>
      match tag with
      | some (.markup name false mode) =>
        .start name (seenAttrs mode (kw.getD [])) :: nodesEvents body ++ [.close name]
      | some (.markup name true mode) => [.void name (seenAttrs mode (kw.getD []))]
      | some .custom =>
        match attrs with
        | some [.obj name] =>
          .start name (seenAttrs .html (kw.getD [])) :: nodesEvents body ++ [.close name]
        | _ => nodesEvents body
      | _ => nodesEvents body
/-- Events of a list of nodes. -/
def nodesEvents : List Node → List Event
  | [] => []
  | n :: ns => nodeEvents n ++ nodesEvents ns
end

/-- Indentation strings: whitespace only. -/
def SpaceIndent : Option Str → Prop
  | none => True
  | some s => ∀ c ∈ s, isSpace c = true

mutual
/-- Trees covered by the structure theorem: markup elements with valid names and attribute names,
null and native nodes, untagged nodes, and texts with no active markup. -/
def WellFormed : Node → Prop
  | .mk cls tag attrs kw body _ indent =>
    SpaceIndent indent ∧
    match cls with
    | .text s => SafeText s
    | _ =>
      (∀ a ∈ kw.getD [], ValidName a.1) ∧ WellFormedAll body ∧
      match tag with
      | none => True
      | some .null => True
      | some (.native _) => True
      | some (.markup name _ _) => ValidName name
      | some .custom => ∀ name, attrs = some [.obj name] → ValidName name
      | _ => False
/-- `WellFormed` for a list of nodes. -/
def WellFormedAll : List Node → Prop
  | [] => True
  | n :: ns => WellFormed n ∧ WellFormedAll ns
end

end Verif.Spec
