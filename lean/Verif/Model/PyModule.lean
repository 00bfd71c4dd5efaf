import Verif.Model.Dict
import Verif.Model.PyStr

/-
Symbols of Python modules: `class PyModule`, `src/hypertag/core/runtime.py`, lines 79-108, and the registry
of standard tags and functions, `src/hypertag/std/registry.py`, lines 5-41.

Python objects `O` are opaque.
-/

namespace Verif
open Py

/-- What the code asks about a Python object. -/
structure PyObjects (O E : Type) where
  /-- truth -/
  truth : O → Bool
  /-- `isinstance(x, dict)`, and its items. Simplification: keys are strings. -/
  dict : O → Option (Dict Str O)
  /-- `x.name`; `none` if it is not a string (such as `Tag.name = None`, tag.py:18). May raise. -/
  name : O → Except E (Option Str)

/-- Exceptions of `PyModule.__init__`: `ImportErrorEx` of runtime.py:101 or 105, of the access to
`tag.name`, and `IndexError` of `name[0]`. -/
inductive PyModErr (E : Type) where
  | notDict
  | tagName
  | attr (e : E)
  | index
  deriving DecidableEq, Repr

/-- `name if name[0] == MARK_TAG else TAG(name)`, runtime.py:107; `none` is `IndexError`. -/
def tagSymbol : Str → Option Str
  | [] => none
  | c :: cs => some (if c = '%' then c :: cs else '%' :: c :: cs)

/-- The loop of runtime.py:104-105. -/
def checkTagNames {O E : Type} (W : PyObjects O E) : List (Str × O) → Except (PyModErr E) Unit
  | [] => .ok ()
  | (n, t) :: rest =>
    match W.name t with
    | .error e => .error (.attr e)
    | .ok m => if m = some n then checkTagNames W rest else .error .tagName

/-- The dict comprehension of runtime.py:107. -/
def tagSymbols {O E : Type} : List (Str × O) → Except (PyModErr E) (List (Str × O))
  | [] => .ok []
  | (n, t) :: rest =>
    match tagSymbol n with
    | none => .error .index
    | some s =>
      match tagSymbols rest with
      | .error e => .error e
      | .ok l => .ok ((s, t) :: l)

/-- `PyModule.__init__`, runtime.py:84-107: `attrs` are the pairs of `name` and `getattr(module, name)`
for `name in dir(module)`. -/
def pyModule {O E : Type} (W : PyObjects O E) (attrs : List (Str × O)) :
    Except (PyModErr E) (Dict Str O) :=
  let symbols : Dict Str O := Dict.update [] (attrs.map (fun p => ('$' :: p.1, p.2)))
  let rest := Dict.erase symbols ('$' :: "__tags__".toList)
  match Dict.get? symbols ('$' :: "__tags__".toList) with
  | none => .ok rest
  | some tags =>
    if W.truth tags = false then .ok rest
    else
      match W.dict tags with
      | none => .error .notDict
      | some d =>
        match checkTagNames W d with
        | .error e => .error e
        | .ok () =>
          match tagSymbols d with
          | .error e => .error e
          | .ok l => .ok (Dict.update rest l)

/-! ### The registry -/

/-- The argument of `Registry.tag`: a class and the result of instantiating it, a function, or any other
object. -/
inductive Registered (O E : Type) where
  | cls (inst : Except E O)
  | fn (f : O)
  | obj (o : O)

/-- `TagFunction(fun)`, tag.py:48-54, and `fun.__name__`. -/
structure PyFunctions (O : Type) where
  tagFunction : O → O
  funName : O → Str

/-- `Registry`, registry.py:8-10. -/
structure Registry (O : Type) where
  tags : Dict Str O := []
  vars : Dict Str O := []

/-- Exceptions of `Registry.tag`: of the constructor or of the access to `name`. A name that is no string
is not considered. -/
inductive RegErr (E : Type) where
  | exc (e : E)
  | noName
  deriving DecidableEq, Repr

/-- `Registry.tag(obj)`, registry.py:12-28. -/
def Registry.tag {O E : Type} (W : PyObjects O E) (F : PyFunctions O) (r : Registry O) :
    Registered O E → Except (RegErr E) (Registry O)
  | .cls (.error e) => .error (.exc e)
  | .cls (.ok t) => put t
  | .fn f => .ok { r with tags := r.tags.set (F.funName f) (F.tagFunction f) }
  | .obj o => put o
where
  put (t : O) : Except (RegErr E) (Registry O) :=
    match W.name t with
    | .error e => .error (.exc e)
    | .ok none => .error .noName
    | .ok (some n) => .ok { r with tags := r.tags.set n t }

/-- `Registry.var(name, obj)`, registry.py:30-41; for one argument `name` is `obj.__name__`. -/
def Registry.var {O : Type} (r : Registry O) (name : Str) (obj : O) : Registry O :=
  { r with vars := r.vars.set name obj }

/-- A call of one of both. -/
inductive RegCall (O E : Type) where
  | tag (x : Registered O E)
  | var (name : Str) (obj : O)

/-- A sequence of calls, as in `std/builtins.py` and `std/html.py`. -/
def Registry.run {O E : Type} (W : PyObjects O E) (F : PyFunctions O) (r : Registry O) :
    List (RegCall O E) → Except (RegErr E) (Registry O)
  | [] => .ok r
  | .tag x :: cs =>
    match r.tag W F x with
    | .error e => .error e
    | .ok r' => Registry.run W F r' cs
  | .var n o :: cs => Registry.run W F (r.var n o) cs

end Verif
