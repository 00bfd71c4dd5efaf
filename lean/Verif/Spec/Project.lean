import Verif.Model.Project
import Verif.Props.Loader

/-
What imports between scripts mean, said without a cache and without an order of execution.
-/

namespace Verif.Spec
open Py

section
variable {M E : Type} (P : Project M E)

/-- An import path that denotes one file, whoever imports it: the answer of the `resolve` function
given to the loader, or, for a path without dots, a file of that name in the current folder. -/
inductive At : Str → Str → Prop
  | resolved {p loc f} : P.env.resolve = some f → f p = some loc → loc ≠ [] → P.env.exist loc = true →
      p.head? ≠ some '.' → At p loc
  | folder {p} : (∀ f, P.env.resolve = some f → f p = none) → '.' ∉ p →
      P.env.exist (underFolder P.env P.env.cwd p) = true → At p (underFolder P.env P.env.cwd p)

/-- An import path for which there is no script in any folder; `r` is what Python's import gives. -/
def Foreign (p : Str) (r : Except (ProjErr E) M) : Prop :=
  (∀ cache ref, (∀ l ∈ cache, P.env.exist l = true) → hyLocate P.env cache p ref = .ok .none) ∧
  ∀ ref, fromPython P p ref = r

/-- An import path of one of the two kinds. -/
def Plain (p : Str) : Prop := (∃ loc, At P p loc) ∨ (∃ r, Foreign P p r)

/-- The translation may ask for the path. -/
inductive Uses : Script M E → Str → Prop
  | here {p k} : Uses (.request p k) p
  | later {p q k} (m : M) : Uses (k m) p → Uses (.request q k) p

/-- The translation asks for the path unless it fails before. -/
inductive Demands : Script M E → Str → Prop
  | here {p k} : Demands (.request p k) p
  | later {p q k} : (∀ m, Demands (k m) p) → Demands (.request q k) p

mutual

/-- The module of a file: what its translation gives when every import gives its meaning. -/
inductive Means : Str → M → Prop
  | mk {loc m} : Gives (P.script loc none) m → Means loc m

/-- The result of a translation when every import gives its meaning. -/
inductive Gives : Script M E → M → Prop
  | done {m} : Gives (.done (.ok m)) m
  | step {p k m m'} : Denotes p m → Gives (k m) m' → Gives (.request p k) m'

/-- The meaning of an import path. -/
inductive Denotes : Str → M → Prop
  | file {p loc m} : At P p loc → Means loc m → Denotes p m
  | python {p m} : Foreign P p (.ok m) → Denotes p m

end

/-- A script of the project may import another one. -/
def MayImport (loc loc' : Str) : Prop := ∃ p, Uses (P.script loc none) p ∧ At P p loc'

/-- Every script imports plain paths only. -/
def PlainProject : Prop := ∀ loc p, Uses (P.script loc none) p → Plain P p

end

end Verif.Spec
