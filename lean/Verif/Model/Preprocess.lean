import Verif.Model.PyStr

/-
Choice of the indentation marks and encoding of indentation:
`src/hypertag/core/ast.py`, `class Grammar`, lines 148-275.
-/

namespace Verif
open Py

/-- `self.symbols`, ast.py:154-169: the characters that encode indentation. -/
structure Marks where
  indentS : Char
  dedentS : Char
  indentT : Char
  dedentT : Char

/-- Exceptions of `preprocess`: `IndentationError` with the line number, or a failed `assert`
(or an `IndexError` of `output[-1]`). -/
inductive PreErr where
  | indentation (linenum : Nat)
  | assertion
  deriving DecidableEq, Repr

/-- Local variables of the loop in `Grammar.preprocess`, ast.py:214-217. -/
structure PreState where
  lines : List Str
  linenum : Nat
  current : Str
  margin : Nat

/-- `lines[-1] += symbols`. -/
def appendLast : List Str → Str → List Str
  | [], _ => []
  | [l], s => [l ++ s]
  | l :: m :: ls, s => l :: appendLast (m :: ls) s

/-- `''.join(INDENT_S if char == ' ' else INDENT_T for char in increment)`, ast.py:243. -/
def indentSymbols (M : Marks) (increment : Str) : Str :=
  increment.map (fun c => if c = ' ' then M.indentS else M.indentT)

/-- `''.join(DEDENT_S if char == ' ' else DEDENT_T for char in reversed(decrement))`, ast.py:249. -/
def dedentSymbols (M : Marks) (decrement : Str) : Str :=
  decrement.reverse.map (fun c => if c = ' ' then M.dedentS else M.dedentT)

/-- Body of the loop `for line in script`, ast.py:222-258. -/
def preStep (M : Marks) (total : Nat) (st : PreState) (line : Str) : Except PreErr PreState :=
  let linenum := st.linenum + 1
  let line := rstrip line
  let tail := lstrip line
  let indent := line.take (line.length - tail.length)
  if tail = [] ∧ linenum ≤ total then
    .ok { st with linenum := linenum, margin := st.margin + 1 }
  else
    let finish (lines : List Str) (current : Str) : PreState :=
      { lines := lines ++ [List.replicate st.margin '\n' ++ tail], linenum := linenum,
        current := current, margin := 0 }
    if indent = st.current then .ok (finish st.lines st.current)
    else if startsWith indent st.current then
      let increment := indent.drop st.current.length
      .ok (finish (appendLast st.lines (indentSymbols M increment)) indent)
    else if startsWith st.current indent then
      let decrement := st.current.drop indent.length
      .ok (finish (appendLast st.lines (dedentSymbols M decrement)) indent)
    else .error (.indentation linenum)

/-- The loop, ast.py:222-258. -/
def preLoop (M : Marks) (total : Nat) : PreState → List Str → Except PreErr PreState
  | st, [] => .ok st
  | st, line :: rest =>
    match preStep M total st line with
    | .ok st' => preLoop M total st' rest
    | .error e => .error e

/-- The steps after the loop, ast.py:260-267. -/
def preFinish (r : Except PreErr PreState) : Except PreErr Str :=
  match r with
  | .error e => .error e
  | .ok st =>
    if st.current ≠ [] then .error .assertion
    else
      let output := join ['\n'] st.lines ++ List.replicate st.margin '\n'
      if output.getLast? ≠ some '\n' then .error .assertion
      else .ok output.dropLast

/-- `Grammar.preprocess(text)`, ast.py:200-275. -/
def preprocess (M : Marks) (text : Str) : Except PreErr Str :=
  let script := split '\n' text ++ [[]]
  let total := script.length - 1
  preFinish
    (preLoop M total { lines := [[]], linenum := 0, current := [], margin := 0 } script)

/-- The loop `while chr(code) in text: code += 1`, ast.py:192-193. Characters are represented by
their code points. `fuel` bounds the number of iterations; `findFree_spec` shows that the fuel given
in `getParserChars` never runs out. -/
def findFree (text : List Nat) : Nat → Nat → Nat
  | 0, code => code
  | fuel + 1, code => if text.elem code then findFree text fuel (code + 1) else code

/-- `CHARS_DEFAULT`, ast.py:155. -/
def charsDefault : List Nat := [0x2768, 0x2769, 0x276A, 0x276B]

/-- The loop `for _ in range(4)`, ast.py:191-195. -/
def pickChars (text : List Nat) : Nat → Nat → List Nat
  | 0, _ => []
  | n + 1, code =>
    let free := findFree text (text.length + 1) code
    free :: pickChars text n (free + 1)

/-- `Grammar.get_parser(text)`, ast.py:178-197: the four characters of the parser. `none` stands for
the `ValueError` of `chr(code)` when a code exceeds 0x10FFFF. -/
def getParserChars (text : List Nat) : Option (List Nat) :=
  if !(charsDefault.any (fun c => text.elem c)) then some charsDefault
  else
    let chars := pickChars text 4 0x2768
    if chars.all (· ≤ 0x10FFFF) then some chars else none

/-- `HypertagAST._locate_error(script)`, ast.py:1984-2009: the binary search.
`parses ls = true` iff the script made of lines `ls` (preprocessed) parses completely.
Simplification: an `IndentationError` of the inner `preprocess` cannot happen for prefixes of a
script that was preprocessed successfully, and is not modelled here (see `C17_prefix`). -/
def locateLoop (parses : List Str → Bool) (lines : List Str) (good bad : Nat) : Nat × Nat :=
  if good + 1 < bad then
    let split := (good + bad) / 2
    if parses (lines.take split) then locateLoop parses lines split bad
    else locateLoop parses lines good split
  else (good, bad)
termination_by bad - good

/-- Result of `_locate_error`: the text of the line (stripped) and its number;
`none` is an `IndexError`. -/
def locateError (parses : List Str → Bool) (script : Str) : Option (Str × Nat) :=
  let lines := split '\n' script
  let bad := (locateLoop parses lines 0 lines.length).2
  let bad := if bad = 0 then 1 else bad
  (lines[bad - 1]?).map (fun l => (strip l, bad))

end Verif
