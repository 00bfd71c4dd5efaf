import Verif.Model.Dict

/-
The symbol table `MultiDict` of `src/hypertag/core/structs.py`, lines 82-187 (with the parts of
`Stack`, lines 20-79, that it uses).
-/

namespace Verif

/-- Exceptions that the methods may raise: `IndexError` (pop from an empty list), `KeyError`
(internal: `del self.lookup[name]` of a missing name), and the explicit one of `reset`. -/
inductive TableErr where
  | index
  | key
  | position
  deriving DecidableEq, Repr

/-- `MultiDict`, structs.py:101-106: `stack` of triples (name, value, index of previous), `lookup`
from names to their most recent positions. -/
structure MultiDict (K V : Type) where
  stack : List (K × V × Option Nat)
  lookup : Dict K Nat

namespace MultiDict
variable {K V : Type} [DecidableEq K]

/-- `MultiDict()`, structs.py:104-106. -/
def empty : MultiDict K V := { stack := [], lookup := [] }

/-- `name in md`, structs.py:108-109. -/
def contains (md : MultiDict K V) (name : K) : Bool := (md.lookup.get? name).isSome

/-- `md.get(name)`, structs.py:116-119 (`md[name]`, 111-114, raises instead of returning `None`).
A position outside of the stack would be an `IndexError`. -/
def get (md : MultiDict K V) (name : K) : Except TableErr (Option V) :=
  match md.lookup.get? name with
  | none => .ok none
  | some idx =>
    match md.stack[idx]? with
    | some e => .ok (some e.2.1)
    | none => .error .index

/-- `md.keys()`, structs.py:121. -/
def keys (md : MultiDict K V) : List K := md.lookup.keys

/-- `md.push(name, value)`, structs.py:127-130. -/
def push (md : MultiDict K V) (name : K) (value : V) : MultiDict K V :=
  let prev := md.lookup.get? name
  { lookup := md.lookup.set name md.stack.length
    stack := md.stack ++ [(name, value, prev)] }

/-- `if prev is None: del lookup[name] else: lookup[name] = prev`, structs.py:136-137, 163-164. -/
def restore (lookup : Dict K Nat) (name : K) (prev : Option Nat) : Except TableErr (Dict K Nat) :=
  match prev with
  | some p => .ok (lookup.set name p)
  | none =>
    match lookup.del name with
    | some l => .ok l
    | none => .error .key

/-- `md.pop()`, structs.py:132-138. -/
def pop (md : MultiDict K V) : Except TableErr ((K × V) × MultiDict K V) :=
  match md.stack.getLast? with
  | none => .error .index
  | some (name, value, prev) =>
    match restore md.lookup name prev with
    | .error e => .error e
    | .ok lookup => .ok ((name, value), { stack := md.stack.dropLast, lookup := lookup })

/-- `md.pushall(symbols)`, structs.py:140-143. -/
def pushall (md : MultiDict K V) : List (K × V) → MultiDict K V
  | [] => md
  | (k, v) :: ps => pushall (md.push k v) ps

/-- `md.pushnew(symbols)`, structs.py:145-148. -/
def pushnew (md : MultiDict K V) : List (K × V) → MultiDict K V
  | [] => md
  | (k, v) :: ps => if md.contains k then pushnew md ps else pushnew (md.push k v) ps

/-- `md.position()`, structs.py:150-152. -/
def position (md : MultiDict K V) : Nat := md.stack.length

/-- The loop of `reset`, structs.py:161-164, over the entries to be removed, the top one first. -/
def resetLoop (lookup : Dict K Nat) : List (K × V × Option Nat) → Except TableErr (Dict K Nat)
  | [] => .ok lookup
  | (name, _, prev) :: es =>
    match restore lookup name prev with
    | .error e => .error e
    | .ok lookup => resetLoop lookup es

/-- `md.reset(position)`, structs.py:154-165. -/
def reset (md : MultiDict K V) (position : Nat) : Except TableErr (MultiDict K V) :=
  if md.stack.length < position then .error .position
  else
    match resetLoop md.lookup (md.stack.drop position).reverse with
    | .error e => .error e
    | .ok lookup => .ok { stack := md.stack.take position, lookup := lookup }

/-- `md.asdict(start_position)`, structs.py:167-170. -/
def asdict (md : MultiDict K V) (start : Nat) : Dict K V :=
  Dict.update [] ((md.stack.drop start).map (fun e => (e.1, e.2.1)))

end MultiDict
end Verif
