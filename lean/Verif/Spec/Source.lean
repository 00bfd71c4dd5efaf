import Verif.Model.Preprocess
import Verif.Spec.Lines

/-! The layout of a script: lines, and groups of lines with a common additional indentation. -/

namespace Verif.Spec
open Verif.Py

/-- A line with the text `t` after `m` empty lines, or a group of items that are indented by `inc`. -/
inductive Item where
  | line (m : Nat) (t : Str)
  | group (inc : Str) (items : List Item)

/-- The item is a group. -/
def Item.isGroup : Item → Bool
  | .line _ _ => false
  | .group _ _ => true

mutual
/-- The lines of an item that is indented by `cur`. -/
def Item.lines (cur : Str) : Item → List Str
  | .line m t => List.replicate m [] ++ [cur ++ t]
  | .group inc items => itemLines (cur ++ inc) items
/-- The lines of several items. -/
def itemLines (cur : Str) : List Item → List Str
  | [] => []
  | i :: is => i.lines cur ++ itemLines cur is
end

/-- The text of the script. -/
def itemText (items : List Item) : Str := join ['\n'] (itemLines [] items)

/-- A text of a line: it does not begin or end with whitespace, and is not empty. -/
structure TrimmedLine (t : Str) : Prop where
  nonempty : t ≠ []
  trimmed : strip t = t
  oneLine : '\n' ∉ t

mutual
/-- The item can be recognized in the text: lines have trimmed texts; a group is indented by
spaces and tabs and is not empty. -/
def Item.Ok : Item → Prop
  | .line _ t => TrimmedLine t
  | .group inc items => inc ≠ [] ∧ (∀ c ∈ inc, c = ' ' ∨ c = '\t') ∧ items ≠ [] ∧ ItemsOk items
/-- The same for all items; two groups are not adjacent. -/
def ItemsOk : List Item → Prop
  | [] => True
  | i :: is => i.Ok ∧ ItemsOk is ∧ (i.isGroup = true → ∀ j, is.head? = some j → j.isGroup = false)
end

mutual
/-- The encoded text: each group is enclosed in one pair of brackets for each character of its
indentation. -/
def Item.flat (M : Marks) : Item → Str
  | .line m t => '\n' :: (List.replicate m '\n' ++ t)
  | .group inc items =>
    inc.map (fun c => if c = ' ' then M.indentS else M.indentT) ++ itemsFlat M items ++
      inc.reverse.map (fun c => if c = ' ' then M.dedentS else M.dedentT)
/-- The encoded text of several items. -/
def itemsFlat (M : Marks) : List Item → Str
  | [] => []
  | i :: is => i.flat M ++ itemsFlat M is
end

end Verif.Spec
