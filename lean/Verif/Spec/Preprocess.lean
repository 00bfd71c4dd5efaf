import Verif.Model.Preprocess
import Verif.Spec.Lines

/-! Specification of the encoding of indentation. Uses only `Marks` from the model. -/

namespace Verif.Spec
open Verif.Py

/-- One of the four mark characters. -/
def isMark (M : Marks) (c : Char) : Bool :=
  c == M.indentS || c == M.dedentS || c == M.indentT || c == M.dedentT

/-- The marks are pairwise different. -/
def Marks.Distinct (M : Marks) : Prop :=
  [M.indentS, M.dedentS, M.indentT, M.dedentT].Nodup

/-- Usable marks for a text: pairwise different, not newlines and not in the text. -/
structure Usable (M : Marks) (text : Str) : Prop where
  distinct : Marks.Distinct M
  fresh : ∀ c ∈ text, isMark M c = false
  notNl : isMark M '\n' = false

/-- Kinds of indentation levels. -/
inductive Kind where
  | space
  | tab
  deriving DecidableEq, Repr

/-- Read marks as typed brackets. The stack holds the open levels, innermost first.
`none`: a DEDENT without a matching INDENT of the same kind. -/
def brackets (M : Marks) : List Kind → Str → Option (List Kind)
  | st, [] => some st
  | st, c :: cs =>
    if c = M.indentS then brackets M (.space :: st) cs
    else if c = M.indentT then brackets M (.tab :: st) cs
    else if c = M.dedentS then
      match st with
      | .space :: st' => brackets M st' cs
      | _ => none
    else if c = M.dedentT then
      match st with
      | .tab :: st' => brackets M st' cs
      | _ => none
    else brackets M st cs

/-- The current indentation (as a string) after the marks in `s`. -/
def indentAfter (M : Marks) : Str → Str → Str
  | ind, [] => ind
  | ind, c :: cs =>
    if c = M.indentS then indentAfter M (ind ++ [' ']) cs
    else if c = M.indentT then indentAfter M (ind ++ ['\t']) cs
    else if c = M.dedentS ∨ c = M.dedentT then indentAfter M ind.dropLast cs
    else indentAfter M ind cs

/-- A segment of the encoded text without its marks. -/
def unmarked (M : Marks) (s : Str) : Str := s.filter (fun c => !isMark M c)

/-- Read script lines back from the segments of the encoded text, given the indentation in force. -/
def decodeSegs (M : Marks) : Str → List Str → List Str
  | _, [] => []
  | ind, s :: segs =>
    (if unmarked M s = [] then [] else ind ++ unmarked M s) ::
      decodeSegs M (indentAfter M ind s) segs

/-- The decoder: segment 0 only sets the indentation of line 1, segment `k` holds line `k`. -/
def decodeScript (M : Marks) (encoded : Str) : List Str :=
  match lines encoded with
  | [] => []
  | s0 :: segs => decodeSegs M (indentAfter M [] s0) segs

/-- Leading whitespace of a line. -/
def leading (l : Str) : Str := l.takeWhile isSpace

/-- Indentation of the last non-blank line. -/
def lastIndent (ls : List Str) : Str :=
  match (ls.filter (fun l => decide (NonBlank l))).getLast? with
  | some l => leading l
  | none => []

/-- Line number `k` (from 0) has an indentation incompatible with that of the closest preceding
non-blank line. -/
def BadLine (ls : List Str) (k : Nat) : Prop :=
  ∃ l, ls[k]? = some l ∧ NonBlank l ∧
    ¬ lastIndent (ls.take k) <+: leading l ∧ ¬ leading l <+: lastIndent (ls.take k)

end Verif.Spec
