/-
Python `dict`: insertion-ordered association list with distinct keys.
-/

namespace Verif

/-- A Python `dict` (insertion order, as guaranteed since Python 3.7). -/
abbrev Dict (K V : Type) := List (K × V)

namespace Dict
variable {K V : Type} [DecidableEq K]

/-- `d.get(k)`. -/
def get? : Dict K V → K → Option V
  | [], _ => none
  | (k', v) :: d, k => if k' = k then some v else get? d k

/-- `d[k] = v`: an existing key keeps its position. -/
def set : Dict K V → K → V → Dict K V
  | [], k, v => [(k, v)]
  | (k', v') :: d, k, v => if k' = k then (k', v) :: d else (k', v') :: set d k v

/-- Entries of `d` without the key `k`. -/
def erase : Dict K V → K → Dict K V
  | [], _ => []
  | (k', v') :: d, k => if k' = k then d else (k', v') :: erase d k

/-- `del d[k]`; `none` is `KeyError`. -/
def del (d : Dict K V) (k : K) : Option (Dict K V) :=
  match get? d k with
  | some _ => some (erase d k)
  | none => none

/-- `d.keys()`. -/
def keys (d : Dict K V) : List K := d.map Prod.fst

/-- `d.update(pairs)` / `dict(pairs)` starting from `d`. -/
def update (d : Dict K V) : List (K × V) → Dict K V
  | [] => d
  | (k, v) :: ps => update (set d k v) ps

end Dict
end Verif
