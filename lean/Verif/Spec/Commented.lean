import Verif.Spec.Scripts

/-! Comments in the text of a script. -/

namespace Verif.Spec
open Verif.Py

/-- Lines of a comment: `m` empty lines, a line that begins with one of the marks of a comment and goes on with any text, and, if there are any, lines
of text that are indented under it. -/
structure CommentText (M : Marks) (names : Str → Option Char) (m : Nat) (items : List Item) : Prop where
  shape : ∃ mark t is xs, items = .line m (mark ++ t) :: is ∧ (mark = s!!"#" ∨ mark = s!!"--") ∧ (∀ c ∈ t, TextChar M c) ∧
    TextTail M names .verbat is xs
  ok : ItemsOk items

end Verif.Spec
