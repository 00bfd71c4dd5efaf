import Verif.Model.Project
import Verif.Spec.Lines

/-! Where scripts are: folders and packages. -/

namespace Verif.Spec
open Verif.Py

/-- A component of a path: a name of a folder, of a package or of a script. -/
def PathName (sep : Char) (c : Str) : Prop := c ≠ [] ∧ sep ∉ c ∧ '.' ∉ c

/-- The script is in the package with the components `comps`, whose top folder is in the folder with the components `top`. -/
structure Placed (sep : Char) (top comps : List Str) (r : Referrer) : Prop where
  outside : ∀ c ∈ top, sep ∉ c
  names : ∀ c ∈ comps, PathName sep c
  inside : comps ≠ []
  root : r.root = some (join [sep] (top ++ comps))
  package : r.package = some (join ['.'] comps)

/-- The components of the package `k - 1` levels above. -/
def above (comps : List Str) (k : Nat) : List Str := comps.take (comps.length - (k - 1))

/-- An import path with `k` dots before the names. -/
def relativePath (k : Nat) (names : List Str) : Str := List.replicate k '.' ++ join ['.'] names

/-- `os.path.dirname` for the files of a project. -/
def Folders {M E} (P : Project M E) : Prop := ∀ dir name, dir ≠ [] → P.env.sep ∉ name → P.folder (dir ++ P.env.sep :: name) = some dir

end Verif.Spec
