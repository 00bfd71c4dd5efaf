import Verif.Spec.Lines

/-! Specification vocabulary for the built-in functions. -/

namespace Verif.Spec
open Verif.Py

/-- `Words s ws`: the maximal runs of non-whitespace characters of `s` are `ws`, in this order. -/
inductive Words : Str → List Str → Prop
  | blank {g : Str} : (∀ c ∈ g, isSpace c = true) → Words g []
  | word {g w rest : Str} {ws : List Str} :
      (∀ c ∈ g, isSpace c = true) → w ≠ [] → (∀ c ∈ w, isSpace c = false) →
      (∀ c, rest.head? = some c → isSpace c = true) →
      Words rest ws → Words (g ++ w ++ rest) (w :: ws)

/-- `r` lists the distinct elements of `l`, each once, ordered by their first occurrences in `l`. -/
def FirstOccurrences {α} [DecidableEq α] (l r : List α) : Prop :=
  (∀ x, x ∈ r ↔ x ∈ l) ∧ r.Nodup ∧ r.Pairwise (fun a b => l.idxOf a < l.idxOf b)

/-- The characters that end a line for `str.splitlines`, by their code points: newline, vertical tab, form
feed, carriage return, the three separators, next line, line separator, paragraph separator. -/
def lineEnds : List Nat := [0x0a, 0x0b, 0x0c, 0x0d, 0x1c, 0x1d, 0x1e, 0x85, 0x2028, 0x2029]

/-- A line has no character that ends lines. -/
def OfOneLine (l : Str) : Prop := ∀ c ∈ l, c.toNat ∉ lineEnds

/-- `SplitLines text ls`: `ls` are the lines of `text`. Each is ended by a single character or by a
carriage return with a newline, which belong together; the last one may have no end and then is not
empty. -/
inductive SplitLines : Str → List Str → Prop
  | nil : SplitLines [] []
  | last {l : Str} : l ≠ [] → OfOneLine l → SplitLines l [l]
  | pair {l rest : Str} {ls : List Str} : OfOneLine l → SplitLines rest ls →
      SplitLines (l ++ '\r' :: '\n' :: rest) (l :: ls)
  | single {l rest : Str} {c : Char} {ls : List Str} : OfOneLine l → c.toNat ∈ lineEnds →
      (c = '\r' → ∀ r, rest ≠ '\n' :: r) → SplitLines rest ls → SplitLines (l ++ c :: rest) (l :: ls)

/-- Line without its leading whitespace: `Trimmed l t` iff `l` is whitespace followed by `t`, and
`t` starts with a non-whitespace character. -/
def Trimmed (l t : Str) : Prop :=
  ∃ g c u, l = g ++ t ∧ (∀ d ∈ g, isSpace d = true) ∧ t = c :: u ∧ isSpace c = false

/-- Number of leading dots. -/
def leadingDots : Str → Nat
  | '.' :: s => leadingDots s + 1
  | _ => 0

end Verif.Spec
