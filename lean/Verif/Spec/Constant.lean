import Verif.Model.Translate

/-! Specification: constants. -/

namespace Verif.Spec
open Verif Py

/-- Constants: texts, raw texts, numbers, `True`, `False`, `None`. -/
inductive Constant : Expr → Prop where
  | text (parts : List Str) : Constant (.format (parts.map .static))
  | raw (s : Str) : Constant (.strLit s)
  | number (t : Str) : Constant (.number t)
  | bool (b : Bool) : Constant (.boolean b)
  | none : Constant .noneLit

/-- Constants that are false: `None`, `False`, and empty texts. -/
inductive FalseConstant : Expr → Prop where
  | none : FalseConstant .noneLit
  | false : FalseConstant (.boolean false)
  | text (parts : List Str) : (∀ p ∈ parts, p = []) → FalseConstant (.format (parts.map .static))
  | raw : FalseConstant (.strLit [])

/-- The statement `$name = e`, before analysis. -/
def assignTo {P : Type} (name : Str) (e : Expr) : Stmt P := .assign (.many [.var name false none none]) none e

end Verif.Spec
