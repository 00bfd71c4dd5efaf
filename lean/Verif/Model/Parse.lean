import Verif.Model.Grammar

/-
Parsing of a preprocessed script: `ParsimoniousTree.parse`, `src/hypertag/nifty/parsing.py:107-109`, as
called in `Tree.__init__`, line 82; `Expression.parse` of parsimonious.
-/

namespace Verif
open Py

/-- Exceptions of `parse`: `IncompleteParseError` (a subclass of `ParseError`) with the text that was
not matched, or another `ParseError`. -/
inductive ParseErr where
  | incomplete (rest : Str)
  | noMatch
  | timeout
  deriving DecidableEq, Repr

/-- Fuel for a text of `n` characters; `C65_terminates` shows that it does not run out. -/
def parseFuel (n : Nat) : Nat := 1 + (25 + n * 26) * 32

/-- `parser.parse(text)`: match the rule `document` and demand that it consumed the whole text. -/
def parse (M : Marks) (U : Uni) (text : Str) : Except ParseErr (PTree NT) :=
  match run (rule M U) (parseFuel text.length) (.ref .document) text with
  | .ok t [] => .ok t
  | .ok _ rest => .error (.incomplete rest)
  | .fail => .error .noMatch
  | .timeout => .error .timeout

end Verif
