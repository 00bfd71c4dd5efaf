import Verif.Model.Machine

/-! What a block `@ expression` embeds. -/

namespace Verif.Spec
open Verif Verif.Py

variable {P X W : Type}

/-- The nodes that an element of an embedded sequence stands for: `None` for none, a DOM for its nodes, a node for
itself, an object that is opaque to the translator (a list, a generator, ..) for what Python finds in it; there
is nothing in any other value. The run begins in `M` and ends in `M'`. -/
inductive Holds (E : Env P X W) : Val P → Machine P W → Res X (List Ref) → Machine P W → Prop
  | none (M) : Holds E .none M (.ok []) M
  | dom (ns M) : Holds E (.dom ns) M (.ok ns) M
  | node (r M) : Holds E (.node r) M (.ok [r]) M
  | opaque {p M r M'} : runPy E (E.ops.flatten p) M = (r, M') → Holds E (.py p) M r M'
  | bool (b M) : Holds E (.bool b) M (.raise .typeErr) M
  | str (s M) : Holds E (.str s) M (.raise .typeErr) M
  | hyper (h M) : Holds E (.hyper h) M (.raise .typeErr) M
  | embedded (h st M) : Holds E (.embedded h st) M (.raise .typeErr) M
  | part (f args kw M) : Holds E (.part f args kw) M (.raise .typeErr) M

/-- All elements are asked in turn. -/
inductive HoldAll (E : Env P X W) : List (Val P) → Machine P W → List (List Ref) → Machine P W → Prop
  | nil (M) : HoldAll E [] M [] M
  | cons {v vs M ns M1 nss M2} : Holds E v M (.ok ns) M1 → HoldAll E vs M1 nss M2 → HoldAll E (v :: vs) M (ns :: nss) M2

/-- Neither a DOM nor a node. -/
def NoNodes : Val P → Prop
  | .dom _ => False
  | .node _ => False
  | _ => True

/-- The two machines differ at most in the indentation of nodes. -/
structure OnlyIndent (M M' : Machine P W) : Prop where
  states : M'.states = M.states
  world : M'.mem.world = M.mem.world
  next : M'.mem.next = M.mem.next
  nodes : ∀ r, { M'.mem.nodes r with indent := none } = { M.mem.nodes r with indent := none }

/-- A node that is not in the body of another one. -/
def TopNode (M : Machine P W) (r : Ref) : Prop := ∀ q, r ∉ (M.mem.nodes q).body

/-- The outcome of a block that inserts the nodes `ns`, from the machine `M` on: the nodes get the indentation of the
block, and nothing but indentation of nodes changes. Setting it may fail by the assertion of `relative_indent`, or
not end if a node is inside of itself. -/
def Inserted (σ : StateId) (ns : List Ref) (M : Machine P W) (o : Res X (Option (List Ref)) × Machine P W) : Prop :=
  OnlyIndent M o.2 ∧
    ((o.1 = .ok (some ns) ∧ ∀ r, TopNode M r → r ∈ ns → (o.2.mem.nodes r).indent = some (M.states σ).indentation) ∨
      o.1 = .raise .assertion ∨ o.1 = .timeout)

end Verif.Spec
