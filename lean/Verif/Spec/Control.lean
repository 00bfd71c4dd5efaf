import Verif.Spec.Eval
import Verif.Model.Translate

/-
Runs of control blocks, in terms of arbitrary computations for their parts.
-/

namespace Verif
open Py

section
variable {P X W : Type}

/-- The nodes that a block produces, placed at the current indentation: `dom.set_indent(..)`. -/
def placed (σ : StateId) (c : Comp P X W (Option (List Ref))) : Comp P X W (Option (List Ref)) := do
  let a ← c
  let ind ← curIndent σ
  setIndent ind (nodesOf a)
  return some (nodesOf a)

/-- A complete run of `for x in ..: body`: the elements delivered by the iterator, each with the output
of the body for it. -/
inductive ForRun (next : Comp P X W (Option (Val P))) (bind : Val P → Comp P X W Unit)
    (body : Comp P X W (List Ref)) : Machine P W → List (Val P × List Ref) → Machine P W → Prop
  | stop {M M'} : Gives next M none M' → ForRun next bind body M [] M'
  | step {M M1 M2 M3 M' v ns rest} : Gives next M (some v) M1 → Gives (bind v) M1 () M2 →
      Gives body M2 ns M3 → ForRun next bind body M3 rest M' →
      ForRun next bind body M ((v, ns) :: rest) M'

/-- A complete run of `while test: body`: the outputs of the body. -/
inductive WhileRun (test : Comp P X W Bool) (body : Comp P X W (List Ref)) :
    Machine P W → List (List Ref) → Machine P W → Prop
  | stop {M M'} : Gives test M false M' → WhileRun test body M [] M'
  | step {M M1 M2 M' ns rest} : Gives test M true M1 → Gives body M1 ns M2 →
      WhileRun test body M2 rest M' → WhileRun test body M (ns :: rest) M'

/-- All computations, run one after the other, raise ordinary exceptions. -/
inductive AllFail {α} : List (Comp P X W α) → Machine P W → Machine P W → Prop
  | nil (M) : AllFail [] M M
  | cons {c cs M M1 M2 e} : Raises c M e M1 → e.ordinary = true → AllFail cs M1 M2 →
      AllFail (c :: cs) M M2

end
end Verif
