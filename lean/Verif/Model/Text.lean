import Verif.Model.PyStr

/-
Indentation utilities: `src/hypertag/core/dom.py`, lines 27-62.
-/

namespace Verif
open Py

/-- The substitution `re.compile(r'\n(?=.)').sub('\n' + indent, text)` of `add_indent`
(dom.py:27,33): a newline is followed by the indentation iff the next character exists and is not
itself a newline (`.` without DOTALL).
Simplification: `indent` contains no backslash (`sub` takes `'\n' + indent` for a template, in which
backslashes are escapes); indentations of scripts are whitespace. -/
def addIndentScan (indent : Str) : Str → Str
  | [] => []
  | c :: cs =>
    if c = '\n' then
      match cs with
      | [] => [c]
      | d :: _ => if d = '\n' then c :: addIndentScan indent cs
                  else c :: (indent ++ addIndentScan indent cs)
    else c :: addIndentScan indent cs

/-- `add_indent(text, indent)`, dom.py:27-33. -/
def addIndent (text indent : Str) : Str :=
  if indent = [] then text else addIndentScan indent text

/-- The `for i, column in enumerate(zip(*lines))` loop of `get_indent`, dom.py:57-59: the number of
leading columns that are whitespace and equal in all lines. `zip` stops at the shortest line, which
is when some line is empty. Returns `(i, stopped)`: `stopped = true` if the loop left through
`return`, `false` if it ran to its end (`else:` clause, dom.py:60-62).

`min(column) != max(column)` is modelled as "not all characters equal to the first one". -/
def indentColumnsAux : Str → List Str → Nat × Bool
  | [], _ => (0, false)
  | c :: l, ls =>
    if ls.any (·.isEmpty) then (0, false)
    else if !isSpace c || ls.any (fun m => m.head? != some c) then (0, true)
    else
      let r := indentColumnsAux l (ls.map List.tail)
      (r.1 + 1, r.2)

/-- The loop above over a list of lines, dom.py:57-59. -/
def indentColumns : List Str → Nat × Bool
  | [] => (0, false)
  | l :: ls => indentColumnsAux l ls

/-- `get_indent(text)`, dom.py:46-62. -/
def getIndent (text : Str) : Str :=
  let lines := ((split '\n' text).map rstrip).filter (fun l => !l.isEmpty)
  match lines with
  | [] => []
  | l0 :: rest =>
    match indentColumns (l0 :: rest) with
    | (i, true) => l0.take i
    | (_, false) =>
      -- `else:` of the loop: size = min(map(len, lines))
      l0.take ((rest.map List.length).foldl min l0.length)

/-- `del_indent(text, indent)` with an explicit `indent`, dom.py:37-44 (lines 43-44). -/
def delIndentBy (text indent : Str) : Str :=
  let text := if startsWith text indent then text.drop indent.length else text
  replace text ('\n' :: indent) ['\n']

/-- `del_indent(text)` with `indent=None`, dom.py:42-44. -/
def delIndent (text : Str) : Str := delIndentBy text (getIndent text)

end Verif
