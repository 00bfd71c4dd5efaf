import Verif.Spec.Preprocess
import Verif.Model.Parse

/-! Scripts that can be put together, one after another. -/

namespace Verif.Spec
open Verif.Py

/-- The first line of the text that is not blank. -/
def firstLine (text : Str) : Option Str := (lines text).find? (fun l => decide (NonBlank l))

/-- In the line, a quote after a letter `r` has a closing quote. -/
def RawClosed (l : Str) : Prop := ∀ u q v, l = u ++ 'r' :: q :: v → q = '\'' ∨ q = '"' → q ∈ v

/-- A line that may be taken for a continuation of the line before: for a clause of a statement, or for the
second word of an operator `not in`, `is not`. -/
def Continues (l1 l2 : Str) : Prop :=
  s!!"else" <+: l2 ∨ s!!"elif" <+: l2 ∨ (s!!"not" <:+ rstrip l1 ∧ s!!"in" <+: l2) ∨
    (s!!"is" <:+ rstrip l1 ∧ s!!"not" <+: l2)

/-- The blocks of a document: nodes `block` of the syntax tree that are not nested in others. -/
def topBlocks : PTree NT → List (PTree NT)
  | .node _ _ [.node _ _ [.node _ _ [.node _ _ bs]], _] => bs
  | _ => []

end Verif.Spec
