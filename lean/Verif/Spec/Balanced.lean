import Verif.Spec.Policy
import Verif.Spec.Unfold

/-! Balanced markup, and the policies of the properties of whole documents. -/

namespace Verif.Spec
open Verif.Py

/-- A sequence of events in which every element that is opened is closed, elements are properly nested and have
the given names, and nothing is malformed. -/
inductive Balanced (names : Str → Prop) : List Event → Prop
  | nil : Balanced names []
  | chr (c : Char) {ev : List Event} : Balanced names ev → Balanced names (.chr c :: ev)
  | void {n : Str} {as : AttrList} {ev : List Event} : names n → (∀ a ∈ as, ValidName a.1) → Balanced names ev →
      Balanced names (.void n as :: ev)
  | element {n : Str} {as : AttrList} {inner ev : List Event} : names n → (∀ a ∈ as, ValidName a.1) → Balanced names inner →
      Balanced names ev → Balanced names (.start n as :: inner ++ .close n :: ev)

section
variable {P W : Type}

/-- Anything is allowed, except that references are to existing nodes. -/
def Policy.free (obj : Nat → P → Prop) (world : Nat → W → Prop) : Policy P W where
  obj := obj
  world := world
  text := fun _ => True
  key := fun _ => True
  tag := fun _ => True
  calls := True

/-- Texts are escaped; external tags are elements of HTML with the given names (or the null tag); names of attributes
are proper; hypertags are not used as functions. -/
def Policy.markup (tagOf : P → TagObj) (names : Str → Prop) (obj : Nat → P → Prop) (world : Nat → W → Prop) : Policy P W where
  obj := obj
  world := world
  text := SafeText
  key := ValidName
  tag := fun p => tagOf p = .null ∨ ∃ name void mode, tagOf p = .markup name void mode ∧ names name
  calls := False

end
end Verif.Spec
