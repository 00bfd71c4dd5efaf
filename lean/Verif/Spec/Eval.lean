import Verif.Model.Machine

/-
Meaning of Python's operators on operands of arbitrary behaviour. Operands are computations: they may
return a value, raise, have side effects. Nothing here refers to expression trees.
-/

namespace Verif
open Py

section
variable {P X W α : Type}

/-- `c M` returns `a` and leaves the machine in `M'`. -/
def Gives (c : Comp P X W α) (M : Machine P W) (a : α) (M' : Machine P W) : Prop := c M = (.ok a, M')

/-- `c M` raises. -/
def Raises (c : Comp P X W α) (M : Machine P W) (e : Exn X) (M' : Machine P W) : Prop :=
  c M = (.raise e, M')

/-- All of the operands are evaluated, in order, and the test of each value gives `b`. -/
inductive AllTested (test : Val P → Comp P X W Bool) (b : Bool) :
    List (Comp P X W (Val P)) → Machine P W → Machine P W → Prop
  | nil (M) : AllTested test b [] M M
  | cons {c cs v M M1 M2 M3} : Gives c M v M1 → Gives (test v) M1 b M2 →
      AllTested test b cs M2 M3 → AllTested test b (c :: cs) M M3

/-- A test that gives the same answer, without further effect, when repeated at once. -/
def StableTest (test : Val P → Comp P X W Bool) : Prop :=
  ∀ v M b M1, Gives (test v) M b M1 → Gives (test v) M1 b M1

/-- The meaning of `x1 and x2 and ..` (`stop = false`) and `x1 or x2 or ..` (`stop = true`): operands
are evaluated as long as they do not decide; `outcome` of the whole as a relation.
* an operand, not the last one, whose truth is `stop` is the result;
* the outcome of the last operand is the result, without any test;
* an exception of an operand or of a test is passed on. -/
inductive Shortcut (test : Val P → Comp P X W Bool) (stop : Bool) :
    List (Comp P X W (Val P)) → Machine P W → Res X (Val P) × Machine P W → Prop
  | decides {pre c post v M M1 M2 M3} : AllTested test (!stop) pre M M1 → Gives c M1 v M2 →
      post ≠ [] → Gives (test v) M2 stop M3 → Shortcut test stop (pre ++ c :: post) M (.ok v, M3)
  | last {pre c M M1} : AllTested test (!stop) pre M M1 → Shortcut test stop (pre ++ [c]) M (c M1)
  | fails {pre c post M M1 M2 e} : AllTested test (!stop) pre M M1 → Raises c M1 e M2 →
      Shortcut test stop (pre ++ c :: post) M (.raise e, M2)
  | testFails {pre c post v M M1 M2 M3 e} : AllTested test (!stop) pre M M1 → Gives c M1 v M2 →
      post ≠ [] → Raises (test v) M2 e M3 → Shortcut test stop (pre ++ c :: post) M (.raise e, M3)

/-- `[c1, c2, ..]`: operands evaluated in order. -/
def inOrder : List (Comp P X W α) → Comp P X W (List α)
  | [] => pure []
  | c :: cs => do
    let a ← c
    let as ← inOrder cs
    pure (a :: as)

/-- `(..((acc op1 c1) op2 c2) ..)`. -/
def leftNested (bin : Str → Val P → Val P → Comp P X W (Val P)) (acc : Comp P X W (Val P)) :
    List (Str × Comp P X W (Val P)) → Comp P X W (Val P)
  | [] => acc
  | (op, c) :: rest => leftNested bin (do
      let a ← acc
      let b ← c
      bin op a b) rest

end
end Verif
