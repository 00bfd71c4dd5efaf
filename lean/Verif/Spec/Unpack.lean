import Verif.Model.Script

/-
Unpacking of nested values to nested targets, on the level of values: `items v` are the elements of an
iterable `v`, `none` if it is not iterable.
-/

namespace Verif
open Py

section
variable {P X W : Type}

inductive UnpackErr (P : Type) where
  /-- wrong number of elements -/
  | count
  | notIterable (v : Val P)

mutual
/-- The assignments made, in order, and the error that ends them, if any. A single target gets the value
itself; two or more share its elements. -/
def destructure (items : Val P → Option (List (Val P))) :
    Target → Val P → List (Slot × Val P) × Option (UnpackErr P)
  | .var _ _ _ slot, v => ((slot.map (·, v)).toList, none)
  | .many [t], v => destructure items t v
  | .many ts, v =>
    match items v with
    | some vs => destructureAll items ts vs
    | none => ([], some (.notIterable v))
/-- Elements to targets one by one. -/
def destructureAll (items : Val P → Option (List (Val P))) :
    List Target → List (Val P) → List (Slot × Val P) × Option (UnpackErr P)
  | [], vs => ([], if vs.isEmpty then none else some .count)
  | t :: ts, vs =>
    match vs with
    | [] => ([], some .count)
    | v :: vs =>
      match destructure items t v with
      | (a, some e) => (a, some e)
      | (a, none) => (a ++ (destructureAll items ts vs).1, (destructureAll items ts vs).2)
end

mutual
/-- All variables of the target have slots and all lists are non-empty. -/
def Target.ready : Target → Prop
  | .var _ _ _ slot => slot.isSome = true
  | .many ts => ts ≠ [] ∧ Target.allReady ts
def Target.allReady : List Target → Prop
  | [] => True
  | t :: ts => t.ready ∧ Target.allReady ts
end

/-- The state `σ` after a list of assignments. -/
def storeAll (σ : StateId) : List (Slot × Val P) → Machine P W → Machine P W
  | [], M => M
  | (sl, v) :: rest, M => storeAll σ rest (M.updState σ (fun s =>
      { s with values := fun t => if t = sl then some v else s.values t }))

/-- The Python operations `iter` and `next` implement `items`: `At m it vs` says that in the memory `m`
the iterator `it` is going to deliver `vs`. A new iterator is different from those in use, and
operations on one iterator do not disturb the other ones. -/
structure IterLaw (ops : PyOps P X W) (items : Val P → Option (List (Val P)))
    (At : Mem P W → Val P → List (Val P) → Prop) : Prop where
  iter_ok : ∀ v vs m, items v = some vs → ∃ it m', ops.iter v m = .ret it m' ∧ At m' it vs ∧
    ∀ jt ws, At m jt ws → At m' jt ws ∧ jt ≠ it
  iter_fails : ∀ v m, items v = none → ∃ e m', ops.iter v m = .raise e m' ∧
    ∀ jt ws, At m jt ws → At m' jt ws
  next_item : ∀ it v vs m, At m it (v :: vs) → ∃ m', ops.next it m = .ret (some v) m' ∧ At m' it vs ∧
    ∀ jt ws, At m jt ws → jt ≠ it → At m' jt ws
  next_end : ∀ it m, At m it [] → ∃ m', ops.next it m = .ret none m' ∧
    ∀ jt ws, At m jt ws → jt ≠ it → At m' jt ws

end
end Verif
