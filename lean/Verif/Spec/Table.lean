import Verif.Model.MultiDict
import Verif.Spec.Builtins

/-! Specification of the symbol table: a plain list of bindings, the latest one last. -/

namespace Verif.Spec

/-- Value of the latest binding of `k`. -/
def latest {K V} [DecidableEq K] : List (K × V) → K → Option V
  | [], _ => none
  | (k', v) :: bs, k =>
    match latest bs k with
    | some w => some w
    | none => if k' = k then some v else none

/-- Operations on the table. -/
inductive TableOp (K V : Type) where
  | push (k : K) (v : V)
  | pop
  | reset (n : Nat)

/-- Meaning of an operation on a list of bindings: the new list, and what the operation reports (the
popped binding, nothing, or an error that leaves the list unchanged). -/
def specStep {K V} (bs : List (K × V)) :
    TableOp K V → List (K × V) × Except TableErr (Option (K × V))
  | .push k v => (bs ++ [(k, v)], .ok none)
  | .pop =>
    match bs.getLast? with
    | some b => (bs.dropLast, .ok (some b))
    | none => (bs, .error .index)
  | .reset n => if bs.length < n then (bs, .error .position) else (bs.take n, .ok none)

/-- A history of operations; failed ones have no effect. -/
def specRun {K V} (bs : List (K × V)) :
    List (TableOp K V) → List (K × V) × List (Except TableErr (Option (K × V)))
  | [] => (bs, [])
  | op :: ops =>
    let r := specStep bs op
    let rs := specRun r.1 ops
    (rs.1, r.2 :: rs.2)

/-- An operation applied to the model of `MultiDict`. -/
def tableStep {K V} [DecidableEq K] (md : MultiDict K V) :
    TableOp K V → MultiDict K V × Except TableErr (Option (K × V))
  | .push k v => (md.push k v, .ok none)
  | .pop =>
    match md.pop with
    | .ok (b, md') => (md', .ok (some b))
    | .error e => (md, .error e)
  | .reset n =>
    match md.reset n with
    | .ok md' => (md', .ok none)
    | .error e => (md, .error e)

/-- A history of operations applied to the model of `MultiDict`. -/
def tableRun {K V} [DecidableEq K] (md : MultiDict K V) :
    List (TableOp K V) → MultiDict K V × List (Except TableErr (Option (K × V)))
  | [] => (md, [])
  | op :: ops =>
    let r := tableStep md op
    let rs := tableRun r.1 ops
    (rs.1, r.2 :: rs.2)

/-- All operations of the history leave at least `n` bindings on a list of `len` ones: pops and
resets stay above the position `n`. -/
def StaysAbove {K V} (n : Nat) : List (K × V) → List (TableOp K V) → Prop
  | _, [] => True
  | bs, op :: ops => n ≤ (specStep bs op).1.length ∧ StaysAbove n (specStep bs op).1 ops

end Verif.Spec
