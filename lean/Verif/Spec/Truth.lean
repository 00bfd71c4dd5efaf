import Verif.Model.Expr

/-! The truth of the values that a template has by itself, as in Python: used by C111. Values of Python
(`Val.py`) have the truth that their `__bool__` gives. -/

namespace Verif.Spec
variable {P : Type}

/-- Values that are false: `None`, `False`, the empty string, an empty `DOM`. -/
inductive Falsy : Val P → Prop
  | none : Falsy .none
  | false : Falsy (.bool false)
  | text : Falsy (.str [])
  | nodes : Falsy (.dom [])

/-- Values that are true: `True`, strings with some character (also `'0'`, `'False'` and blanks), `DOM`s
with some node, nodes (also those without contents), hypertags and functions made of hypertags. -/
inductive Truthy : Val P → Prop
  | true : Truthy (.bool true)
  | text (c : Char) (s : Str) : Truthy (.str (c :: s))
  | nodes (r : Ref) (rs : List Ref) : Truthy (.dom (r :: rs))
  | node (r : Ref) : Truthy (.node r)
  | hyper (h : _) : Truthy (.hyper h)
  | embedded (h : _) (st : _) : Truthy (.embedded h st)
  | part (f : Val P) (as : _) (kw : _) : Truthy (.part f as kw)

end Verif.Spec
