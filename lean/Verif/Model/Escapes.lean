import Verif.Model.PyStr

/-
Escape sequences in string literals: `src/hypertag/core/ast.py`, lines 34-51.
-/

namespace Verif
open Py

/-- Value of a hexadecimal digit. -/
def hexVal (c : Char) : Option Nat :=
  let n := c.toNat
  if 48 ≤ n ∧ n ≤ 57 then some (n - 48)
  else if 97 ≤ n ∧ n ≤ 102 then some (n - 87)
  else if 65 ≤ n ∧ n ≤ 70 then some (n - 55)
  else none

/-- Value of a string of hexadecimal digits; `none` if some character is not a digit. -/
def hexValue (acc : Nat) : Str → Option Nat
  | [] => some acc
  | c :: cs =>
    match hexVal c with
    | none => none
    | some d => hexValue (acc * 16 + d) cs

/-- `chr(n)`. Simplification: for surrogates (U+D800..DFFF), which Python accepts, and for numbers
above 0x10FFFF, for which the codec raises, the result is `none`. -/
def chr (n : Nat) : Option Char := if h : n.isValidChar then some (Char.ofNatAux n h) else none

/-- The codec `unicode-escape` applied to `\x..`, `\u....` or `\U........`; `none` is an exception
(`UnicodeDecodeError`). -/
def decodeHex (digits : Str) : Option Char := (hexValue 0 digits).bind chr

def isOctal (c : Char) : Bool := 48 ≤ c.toNat && c.toNat ≤ 55

/-- Single-character escapes, ast.py:40, as decoded by the codec. -/
def singleEscape (c : Char) : Option Char :=
  if c = '\\' then some '\\'
  else if c = '\'' then some '\''
  else if c = '"' then some '"'
  else if c = 'a' then some '\x07'
  else if c = 'b' then some '\x08'
  else if c = 'f' then some '\x0c'
  else if c = 'n' then some '\n'
  else if c = 'r' then some '\r'
  else if c = 't' then some '\t'
  else if c = 'v' then some '\x0b'
  else none

/-- `n` characters other than newline (the regex `.` repeated `n` times). -/
def dots (n : Nat) (s : Str) : Option Str :=
  let t := s.take n
  if t.length = n ∧ '\n' ∉ t then some t else none

/-- What the alternatives of `_re_decode_escapes` (ast.py:34-42) match right after a backslash, in
their order: the number of characters consumed after the backslash and the outcome of decoding
(`none` = exception of the codec). `names` looks Unicode character names up. -/
def matchEscape (names : Str → Option Char) (s : Str) : Option (Nat × Option Char) :=
  match s with
  | [] => none
  | c :: cs =>
    if c = 'U' ∧ (dots 8 cs).isSome then some (9, decodeHex (cs.take 8))
    else if c = 'u' ∧ (dots 4 cs).isSome then some (5, decodeHex (cs.take 4))
    else if c = 'x' ∧ (dots 2 cs).isSome then some (3, decodeHex (cs.take 2))
    else if isOctal c then
      let ds := c :: (cs.take 2).takeWhile isOctal
      some (ds.length, chr (ds.foldl (fun a d => a * 8 + (d.toNat - 48)) 0))
    else if c = 'N' ∧ cs.take 1 = ['{'] ∧ (cs.drop 1).takeWhile (· != '}') ≠ [] ∧ '}' ∈ cs then
      let name := (cs.drop 1).takeWhile (· != '}')
      some (name.length + 3, names name)
    else
      match singleEscape c with
      | some d => some (1, some d)
      | none => none

/-- The substitution `_re_decode_escapes.sub(decode_match, s)`, ast.py:51. `skip` characters of the
current match remain to be dropped. `none` is an exception of the codec. -/
def decodeAux (names : Str → Option Char) : Nat → Str → Option Str
  | _, [] => some []
  | k + 1, _ :: cs => decodeAux names k cs
  | 0, c :: cs =>
    if c = '\\' then
      match matchEscape names cs with
      | none => (decodeAux names 0 cs).map (c :: ·)
      | some (_, none) => none
      | some (k, some d) => (decodeAux names k cs).map (d :: ·)
    else (decodeAux names 0 cs).map (c :: ·)

/-- `decode_escapes(s)`, ast.py:43-51. -/
def decodeEscapes (names : Str → Option Char) (s : Str) : Option Str := decodeAux names 0 s

end Verif
