import Verif.Model.PyStr

/-
Specifications of the general utilities (C103-C107), independent of `Model/Nifty.lean`.
-/

namespace Verif
namespace Spec

section
variable {α : Type}

/-- The half-open ranges that consecutive pieces of a sequence occupy, the first one beginning at
`n`. -/
def ranges : Nat → List (List α) → List (Nat × Nat)
  | _, [] => []
  | n, s :: ss => (n, n + s.length) :: ranges (n + s.length) ss

/-- `pos` lies between two neighbours `a`, `b` of `seq` that `cut` separates. -/
def isCut (seq : List α) (cut : Nat → α → α → Bool) (pos : Nat) : Bool :=
  match seq[pos - 1]?, seq[pos]? with
  | some a, some b => cut pos a b
  | _, _ => false

/-- The inner positions of `seq`, `1 ≤ pos < len(seq)`, where `cut` holds. -/
def cuts (seq : List α) (cut : Nat → α → α → Bool) : List Nat :=
  (List.range' 1 (seq.length - 1)).filter (isCut seq cut)

/-- The answers of a callback with a state, asked once for every element in order, and its last
state. -/
def answers {S : Type} (test : S → α → Bool × S) : List α → S → List Bool × S
  | [], s => ([], s)
  | x :: xs, s => ((test s x).1 :: (answers test xs (test s x).2).1, (answers test xs (test s x).2).2)

/-- The elements of `xs` whose answer is `b`. -/
def chosen (b : Bool) (xs : List α) (bs : List Bool) : List α :=
  ((xs.zip bs).filter (fun p => p.2 == b)).map Prod.fst

end

/-- An operation on the context of a logger. -/
inductive LogOp (K V : Type)
  | push (key : K) (val : V)
  | pop (key : K)
  | set (key : K) (val : V)

/-- The same operations on an independent stack of values for every key: `none` if a value is taken
from an empty stack. -/
def stackOp {K V : Type} [DecidableEq K] (m : K → List V) : LogOp K V → Option (K → List V)
  | .push key val => some fun k => if k = key then val :: m k else m k
  | .pop key =>
    match m key with
    | [] => none
    | _ :: rest => some fun k => if k = key then rest else m k
  | .set key val => some fun k => if k = key then val :: (m k).tail else m k

/-- A sequence of operations on stacks. -/
def stackOps {K V : Type} [DecidableEq K] : List (LogOp K V) → (K → List V) → Option (K → List V)
  | [], m => some m
  | o :: os, m => (stackOp m o).bind (stackOps os)

/-- The part of a path after its last slash, as a relation. -/
structure PathSplit (path dir name : Str) : Prop where
  eq : path = dir ++ name
  noSlash : '/' ∉ name
  dirEnd : dir = [] ∨ dir.getLast? = some '/'

end Spec
end Verif
