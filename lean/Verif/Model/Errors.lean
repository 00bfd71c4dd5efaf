import Verif.Model.Preprocess

/-
Positions in messages of exceptions: `src/hypertag/nifty/parsing.py`, lines 17-39 and 195-202,
`src/hypertag/core/errors.py`, lines 5-26.
-/

namespace Verif
open Py

/-- `s.count(c)` of Python. -/
def strCount (c : Char) (s : Str) : Nat := (s.filter (· == c)).length

/-- `s.rfind(c)` of Python. -/
def rfind (c : Char) : Str → Int
  | [] => -1
  | d :: s => if 0 ≤ rfind c s then rfind c s + 1 else if d = c then 0 else -1

/-- `ParserError.MAXLEN`, parsing.py:19. -/
def errMaxLen : Nat := 20

/-- `node.text(maxlen)`, parsing.py:195-202; `pos` is `(start, end)`. -/
def nodeText (full : Str) (pos : Nat × Nat) (maxlen : Nat) : Str :=
  let stop := min pos.2 (pos.1 + maxlen)
  let ret := (full.take stop).drop pos.1
  if stop < pos.2 then ret ++ ['.', '.', '.'] else ret

/-- What the message of an `HError` tells about its node. -/
structure ErrorAt where
  line : Nat
  column : Int
  text : Str
  deriving DecidableEq, Repr

/-- `ParserError.__init__`, parsing.py:26-32, for a node at `pos` of `fulltext`. -/
def parserErrorAt (full : Str) (pos : Nat × Nat) : ErrorAt :=
  let pre := full.take pos.2
  { line := strCount '\n' pre + 1,
    column := (pre.length : Int) - rfind '\n' pre,
    text := nodeText full pos errMaxLen }

/-- `HError.make_msg`, errors.py:6-26: the numbers in the message; `M` are `parser.symbols`. (`line`
and `column` are never zero or `None` for a node with a position.) -/
def errorAt (M : Marks) (full : Str) (pos : Nat × Nat) : ErrorAt :=
  let e := parserErrorAt full pos
  let pre := full.take pos.1
  let indents := strCount M.indentS pre + strCount M.indentT pre
  let dedents := strCount M.dedentS pre + strCount M.dedentT pre
  let indent : Int := (indents : Int) - dedents
  { e with line := e.line - 1, column := indent + e.column }

end Verif
