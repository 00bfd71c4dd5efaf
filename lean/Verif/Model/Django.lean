import Verif.Model.PyModule

/-
Django's filters: the module `src/hypertag/django/filters.py`.

Simplification: `django.setup()` (line 27) succeeds and does not change the dictionaries of filters. Python objects `O` are opaque.
-/

namespace Verif
open Py

/-- What the module takes from Django, filters.py:17-20. -/
structure DjangoLib (O : Type) where
  django : O
  settings : O
  registerDefault : O
  registerHumanize : O
  /-- `x.filters`; `none` is `AttributeError` -/
  filters : O → Option (Dict Str O)

/-- Exceptions: `RuntimeError` of `settings.configure()` (line 26), if settings were configured before; `NameError`, `AttributeError`;
`KeyError` of `del`. -/
inductive DjangoErr where
  | configured
  | name
  | attr
  | key
  deriving DecidableEq, Repr

/-- `globals().update(<name>.filters)`, filters.py:30-31: the name is looked up in globals. -/
def updateFilters {O : Type} (L : DjangoLib O) (name : Str) (g : Dict Str O) : Except DjangoErr (Dict Str O) :=
  match g.get? name with
  | none => .error .name
  | some r =>
    match L.filters r with
    | none => .error .attr
    | some d => .ok (g.update d)

/-- `del globals()[name]`. -/
def delGlobal {O : Type} (name : Str) (g : Dict Str O) : Except DjangoErr (Dict Str O) :=
  match g.del name with
  | none => .error .key
  | some g => .ok g

/-- Execution of the module, filters.py:17-36, from the globals `g` that Python gives to a new module (`__name__`, `__doc__`, ...);
`configured`: whether settings of Django were configured before. -/
def filtersModule {O : Type} (L : DjangoLib O) (configured : Bool) (g : Dict Str O) : Except DjangoErr (Dict Str O) := do
  let g := g.set (s!!"__django__") L.django
  let g := g.set (s!!"__settings__") L.settings
  let g := g.set (s!!"__register_default__") L.registerDefault
  let g := g.set (s!!"__register_humanize__") L.registerHumanize
  if configured then throw .configured
  let g ← updateFilters L (s!!"__register_humanize__") g
  let g ← updateFilters L (s!!"__register_default__") g
  let g ← delGlobal (s!!"__django__") g
  let g ← delGlobal (s!!"__settings__") g
  let g ← delGlobal (s!!"__register_default__") g
  delGlobal (s!!"__register_humanize__") g

end Verif
