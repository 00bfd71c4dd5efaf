import Verif.Model.Translate

/-!
How a call binds its arguments, after the Python language reference, 6.3.4 "Calls": a list of unfilled
slots, one per formal parameter, is filled first with the positional arguments, then with the keyword
ones, then with defaults.

Nothing here refers to `_append_attrs` or to its model.
-/

namespace Verif

namespace CallBinding
variable {V : Type}

/-- "If there are N positional arguments, they are placed in the first N slots. [..] If there are more
positional arguments than there are formal parameter slots, a `TypeError` exception is raised." -/
def positional : List AttrDef → List V → Option (List (AttrDef × Option V))
  | as, [] => some (as.map (fun a => (a, none)))
  | [], _ :: _ => none
  | a :: as, v :: vs => (positional as vs).map ((a, some v) :: ·)

/-- "For each keyword argument, the identifier is used to determine the corresponding slot. If the slot
is already filled, a `TypeError` exception is raised. Otherwise, the argument is placed in the slot.
[..] If any keyword argument does not correspond to a formal parameter name, a `TypeError` exception is
raised." -/
def keyword (name : Str) (v : V) : List (AttrDef × Option V) → Option (List (AttrDef × Option V))
  | [] => none
  | (a, some w) :: rest =>
    if a.name = name then none else (keyword name v rest).map ((a, some w) :: ·)
  | (a, none) :: rest =>
    if a.name = name then some ((a, some v) :: rest)
    else (keyword name v rest).map ((a, none) :: ·)

/-- All keyword arguments in order. -/
def keywords : List (Str × V) → List (AttrDef × Option V) → Option (List (AttrDef × Option V))
  | [], slots => some slots
  | (name, v) :: kw, slots => (keyword name v slots).bind (keywords kw)

/-- The slots before defaults are filled in; `none` is `TypeError`. -/
def bind (formal : List AttrDef) (pos : List V) (kw : List (Str × V)) :
    Option (List (AttrDef × Option V)) :=
  (positional formal pos).bind (keywords kw)

end CallBinding

/-- "When all arguments have been processed, the slots that are still unfilled are filled with the
corresponding default value from the function definition. [..] If there are any unfilled slots for
which no default value is specified, a `TypeError` exception is raised." Unlike in Python, a default is
evaluated when it is needed, in the state `σ`. -/
def CallBinding.defaults {P X W : Type} (E : Env P X W) (σ : StateId) :
    List (AttrDef × Option (Val P)) → Comp P X W (List (AttrDef × Val P))
  | [] => return []
  | (a, some v) :: rest => do
    let vs ← defaults E σ rest
    return (a, v) :: vs
  | (a, .none) :: rest =>
    match a.default with
    | .none => Comp.raise .typeErr
    | some e => do
      let v ← eval E σ e
      let vs ← defaults E σ rest
      return (a, v) :: vs

/-- The machine after every formal attribute has received its value in the state `σ`: nothing else
changes. -/
structure CallBinding.Assigned {P W : Type} (σ : StateId) (vals : List (AttrDef × Val P))
    (M M' : Machine P W) : Prop where
  formal : ∀ p ∈ vals, ∀ sl, p.1.slot = some sl → (M'.states σ).values sl = some p.2
  others : ∀ sl, (∀ p ∈ vals, p.1.slot ≠ some sl) → (M'.states σ).values sl = (M.states σ).values sl
  rest : M' = M.updState σ (fun s => { s with values := (M'.states σ).values })

end Verif
