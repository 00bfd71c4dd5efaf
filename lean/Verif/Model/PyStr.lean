/-
Python string primitives on `List Char`.

A Python `str` is modelled as a list of Unicode scalar values (`Char`); lone surrogates, which a
Python `str` may hold, are not representable.
-/

namespace Verif

/-- A Python `str`. -/
abbrev Str := List Char

/-- `s!!"abc"` is the literal list of characters `['a', 'b', 'c']`. -/
macro "s!!" s:str : term => do
  let cs := s.getString.toList.map fun c => Lean.Syntax.mkCharLit c
  let cs := cs.toArray
  `(([$cs,*] : List Char))

/-- Outcomes of Python code (a result or an exception) can be compared. -/
instance {ε α} [DecidableEq ε] [DecidableEq α] : DecidableEq (Except ε α)
  | .ok a, .ok b => if h : a = b then isTrue (by rw [h]) else isFalse (by simpa using h)
  | .error a, .error b => if h : a = b then isTrue (by rw [h]) else isFalse (by simpa using h)
  | .ok _, .error _ => isFalse (by simp)
  | .error _, .ok _ => isFalse (by simp)

namespace Py

/-- `str.isspace()` on one character; also the class `\s` of `re` for `str` patterns
(CPython `_PyUnicode_IsWhitespace`): U+0009..000D, 001C..0020, 0085, 00A0, 1680, 2000..200A,
2028, 2029, 202F, 205F, 3000. -/
def isSpace (c : Char) : Bool :=
  let n := c.toNat
  (9 ≤ n && n ≤ 13) || (28 ≤ n && n ≤ 32) || n == 0x85 || n == 0xA0 || n == 0x1680 ||
  (0x2000 ≤ n && n ≤ 0x200A) || n == 0x2028 || n == 0x2029 || n == 0x202F || n == 0x205F ||
  n == 0x3000

/-- `s.lstrip()`. -/
def lstrip (s : Str) : Str := s.dropWhile isSpace

/-- `s.rstrip()`. -/
def rstrip (s : Str) : Str := (s.reverse.dropWhile isSpace).reverse

/-- `s.strip()`. -/
def strip (s : Str) : Str := lstrip (rstrip s)

/-- `s.split(sep)` for a one-character separator: always at least one segment. -/
def split (sep : Char) : Str → List Str
  | [] => [[]]
  | c :: cs =>
    if c = sep then [] :: split sep cs
    else
      match split sep cs with
      | [] => [[c]]
      | l :: ls => (c :: l) :: ls

/-- `sep.join(parts)`. -/
def join (sep : Str) : List Str → Str
  | [] => []
  | [l] => l
  | l :: ls => l ++ sep ++ join sep ls

/-- Worker of `replace`: `skip` characters of the current match are still to be dropped. -/
def replaceAux (old new : Str) : Nat → Str → Str
  | _, [] => []
  | k + 1, _ :: cs => replaceAux old new k cs
  | 0, c :: cs =>
    if old.isPrefixOf (c :: cs) then new ++ replaceAux old new (old.length - 1) cs
    else c :: replaceAux old new 0 cs

/-- `s.replace(old, new)` for a non-empty `old`: leftmost, non-overlapping occurrences. -/
def replace (s old new : Str) : Str := replaceAux old new 0 s

/-- `s.startswith(p)`. -/
def startsWith (s p : Str) : Bool := p.isPrefixOf s

/-- `sub in s` for a one-character `sub`. -/
def contains (s : Str) (c : Char) : Bool := s.elem c

/-- `n * s`. -/
def times (n : Nat) (s : Str) : Str := (List.replicate n s).flatten

/-- `s.rsplit(sep, 1)[0]` for a one-character separator: the part before the last separator, or the
whole string if there is none. -/
def rsplitHead (sep : Char) (s : Str) : Str :=
  if s.elem sep then ((s.reverse.dropWhile (· != sep)).drop 1).reverse else s

/-- Line boundaries recognised by `str.splitlines()` (besides the pair `\r\n`). -/
def isLineBreak (c : Char) : Bool :=
  let n := c.toNat
  (10 ≤ n && n ≤ 13) || (28 ≤ n && n ≤ 30) || n == 0x85 || n == 0x2028 || n == 0x2029

/-- Worker of `splitlines`: `cur` is the current line, reversed; `cr` tells that the previous
character was a `\r` that has already ended a line. -/
def splitlinesAux : Bool → Str → Str → List Str
  | _, cur, [] => if cur = [] then [] else [cur.reverse]
  | cr, cur, c :: cs =>
    if cr && c == '\n' then splitlinesAux false cur cs
    else if isLineBreak c then cur.reverse :: splitlinesAux (c == '\r') [] cs
    else splitlinesAux false (c :: cur) cs

/-- `s.splitlines()`. -/
def splitlines (s : Str) : List Str := splitlinesAux false [] s

end Py
end Verif
