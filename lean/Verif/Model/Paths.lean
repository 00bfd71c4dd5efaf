import Verif.Model.PyStr

/-
Relative import paths: `src/hypertag/core/runtime.py`, lines 21-49.
-/

namespace Verif
open Py

/-- Exceptions of `join_path`. -/
inductive PathErr where
  | importError
  | assertion
  deriving DecidableEq, Repr

/-- The loop `while path[:1] == '.'`, runtime.py:41-45. -/
def joinLoop (sep : Char) (base : Str) : Str → Except PathErr (Str × Str)
  | [] => .ok (base, [])
  | c :: path =>
    if c = '.' then
      if contains base sep then joinLoop sep (rsplitHead sep base) path
      else .error .importError
    else .ok (base, c :: path)

/-- `join_path(base, path, sep, ext)`, runtime.py:21-49. -/
def joinPath (base : Option Str) (path : Str) (sep : Char) (ext : Option Str) :
    Except PathErr (Option Str) :=
  match base with
  | none => .ok none
  | some base =>
    if path.take 1 ≠ ['.'] then .error .assertion
    else
      let path := path.drop 1
      let base := if base.getLast? = some sep then base.dropLast else base
      match joinLoop sep base path with
      | .error e => .error e
      | .ok (base, path) =>
        let fullpath := base ++ [sep] ++ replace path ['.'] [sep]
        -- `if ext:` is false for None and for ''
        .ok (some (fullpath ++ ext.getD []))

end Verif
