import Verif.Model.Django

/-! Specification: what the module of Django's filters consists of. -/

namespace Verif.Spec
open Verif Py

/-- `v` is the value of the name `n` in the dictionary (of distinct names). -/
def Named {O : Type} (d : Dict Str O) (n : Str) (v : O) : Prop := (n, v) ∈ d

/-- Names the module uses while it is executed. -/
def filterHelpers : List Str :=
  [s!!"__django__", s!!"__settings__", s!!"__register_default__", s!!"__register_humanize__"]

/-- A version of Django: two libraries of filters, whose names are not the ones the module uses itself. -/
structure DjangoOk {O : Type} (L : DjangoLib O) (std human : Dict Str O) : Prop where
  stdLib : L.filters L.registerDefault = some std
  humanLib : L.filters L.registerHumanize = some human
  distinctStd : (std.map Prod.fst).Nodup
  distinctHuman : (human.map Prod.fst).Nodup
  names : ∀ n v, Named std n v ∨ Named human n v → n ∉ filterHelpers

/-- The object that the module has under a name: a standard filter; else a filter of humanize; else what Python put there. -/
inductive FilterOf {O : Type} (std human g : Dict Str O) (n : Str) : O → Prop where
  | std {v : O} : Named std n v → FilterOf std human g n v
  | human {v : O} : (∀ w, ¬ Named std n w) → Named human n v → FilterOf std human g n v
  | own {v : O} : (∀ w, ¬ Named std n w) → (∀ w, ¬ Named human n w) → n ∉ filterHelpers → Named g n v → FilterOf std human g n v

end Verif.Spec
