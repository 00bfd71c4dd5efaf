import Verif.Model.PyStr

/-! Specification vocabulary for texts seen as lists of lines. -/

namespace Verif.Spec
open Verif.Py

/-- Lines of a text: it is the unique list of newline-free strings that, joined by newlines, gives
the text (`lines_unique` in `Verif/Lemmas/Lines.lean`). -/
def lines (s : Str) : List Str := split '\n' s

/-- A line with at least one non-whitespace character. -/
def NonBlank (l : Str) : Prop := ∃ c ∈ l, isSpace c = false

instance (l : Str) : Decidable (NonBlank l) := by unfold NonBlank; infer_instance

/-- Apply `f` to all elements but the first. -/
def mapTail {α} (f : α → α) : List α → List α
  | [] => []
  | a :: l => a :: l.map f

/-- Prefix a non-empty line. -/
def shift (ind l : Str) : Str := if l = [] then [] else ind ++ l

/-- Remove the given prefix if it is there. -/
def unshift (ind l : Str) : Str := if ind <+: l then l.drop ind.length else l

/-- `w` is a whitespace prefix of all non-blank lines of the text. -/
def CommonIndent (text w : Str) : Prop :=
  (∀ c ∈ w, isSpace c = true) ∧ ∀ l ∈ lines text, NonBlank l → w <+: l

end Verif.Spec
