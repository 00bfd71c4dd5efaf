import Verif.Model.Dom
import Verif.Model.Dict

/-
The machine on which scripts are evaluated and translated: Python values as far as the translator
distinguishes them, exceptions, the heap of DOM nodes, translation states (`State`, structs.py:355-393)
and the interface to Python code outside of the model.
-/

namespace Verif
open Py

/-- Identity of a `Slot` object, structs.py:409. -/
abbrev Slot := Nat
/-- Identity of a `State` object, structs.py:355. -/
abbrev StateId := Nat
/-- Identity of an `xblock_def` node, ast.py:553. -/
abbrev DefId := Nat
/-- Identity of a `DOM.Node` object, dom.py:271. -/
abbrev Ref := Nat

/-- A `Hypertag` object: an `xblock_def` node (ast.py:553) or an `ImportedHypertag` (ast.py:99-118),
which wraps another one together with the state of its module. -/
inductive HVal where
  | defn (id : DefId)
  | imported (h : HVal) (st : StateId)
  deriving DecidableEq, Repr

/-- Python values. `P` is the type of all objects that the translator does not look into: numbers,
lists, functions, iterators, external tags, ... `none`, `bool`, `str` are the constants of Python;
`dom`, `node` are `DOM` and `DOM.Node` objects; `hyper` a `Hypertag`; `embedded` an `EmbeddedHypertag`
(ast.py:120-140) and `part` the closure made by `partial` (ast.py:65-73).
Simplification: a `DOM` value is the list of its nodes at creation, i.e., code outside of the model
does not replace the list in place (`DOM.alter`) while the translator still holds it. -/
inductive Val (P : Type) where
  | py (p : P)
  | none
  | bool (b : Bool)
  | str (s : Str)
  | dom (ns : List Ref)
  | node (r : Ref)
  | hyper (h : HVal)
  | embedded (h : HVal) (st : StateId)
  | part (f : Val P) (args : List (Val P)) (kw : List (Str × Val P))

/-- Exceptions. `user` is any ordinary exception (a subclass of `Exception`) of code outside of the
model, `base` any other one (`KeyboardInterrupt`, ...). The rest are raised by the code modelled;
`unresolved` is the failure of a node that was not analysed, so has no slot: `AttributeError` (`None` has
no attribute `get`, `set`, ..) or the `AssertionError` of ast.py:1175. -/
inductive Exn (X : Type) where
  | user (x : X)
  | base (x : X)
  | typeErr
  | valueErr
  | falseValue
  | unbound
  | noneString
  | notATag
  | voidTag
  | assertion
  | unresolved
  | key
  | index
  deriving DecidableEq, Repr

/-- Is it a subclass of Python's `Exception`? -/
def Exn.ordinary {X} : Exn X → Bool
  | .base _ => false
  | _ => true

/-- The outcome of a computation. `timeout`: the model ran out of fuel (a loop or recursion went on
for longer than the bound given). -/
inductive Res (X α : Type) where
  | ok (a : α)
  | raise (e : Exn X)
  | timeout
  deriving DecidableEq, Repr

/-- `DOM.Node.tag`: an external `Tag` object, the `Native` tag of a hypertag definition (ast.py:78)
or `null` (tag.py:62). -/
inductive NodeTag (P : Type) where
  | ext (p : P)
  | native (id : DefId)
  | null

/-- A `DOM.Node` object on the heap, dom.py:271-294. -/
structure DNode (P : Type) where
  cls : NodeClass
  tag : Option (NodeTag P) := .none
  attrs : Option (List (Val P)) := .none
  kwattrs : Option (List (Str × Val P)) := .none
  body : List Ref := []
  outline : Bool := false
  indent : Option Str := .none

/-- All memory that code outside of the model can access: the nodes and an opaque world `W`.
Nodes `0 .. next-1` have been created. -/
structure Mem (P W : Type) where
  nodes : Ref → DNode P
  next : Ref
  world : W

/-- A `State` object, structs.py:355-393. -/
structure TState (P : Type) where
  values : Slot → Option (Val P)
  indentation : Str

structure Machine (P W : Type) where
  states : StateId → TState P
  mem : Mem P W

/-- A call of an `EmbeddedHypertag`: `h(body_string, *attrs, **kwattrs)`, ast.py:134. -/
structure Callback (P : Type) where
  tag : HVal
  state : StateId
  body : Val P
  attrs : List (Val P)
  kwattrs : List (Str × Val P)

/-- A terminating run of Python code outside of the model: it works on the memory, may call embedded
hypertags any number of times, and finally returns or raises. It has no access to `State` objects
other than through these calls. -/
inductive Proc (P X W α : Type) where
  | ret (a : α) (m : Mem P W)
  | raise (e : Exn X) (m : Mem P W)
  | call (c : Callback P) (m : Mem P W) (k : Except (Exn X) (Val P) → Mem P W → Proc P X W α)

/-- A piece of Python code outside of the model. -/
abbrev PyM (P X W α : Type) := Mem P W → Proc P X W α

/-- A computation of the translator. -/
def Comp (P X W α : Type) := Machine P W → Res X α × Machine P W

section
variable {P X W α β : Type}

namespace Comp

def pure (a : α) : Comp P X W α := fun M => (.ok a, M)

/-- Continue with the outcome of a step, unless it raised. -/
def next (f : α → Comp P X W β) : Res X α × Machine P W → Res X β × Machine P W
  | (.ok a, M) => f a M
  | (.raise e, M) => (.raise e, M)
  | (.timeout, M) => (.timeout, M)

def bind (c : Comp P X W α) (f : α → Comp P X W β) : Comp P X W β := fun M => next f (c M)

def raise (e : Exn X) : Comp P X W α := fun M => (.raise e, M)

def timeout : Comp P X W α := fun M => (.timeout, M)

/-- The handler's part of `try: c except Exception: h`. -/
def handle (h : Comp P X W α) : Res X α × Machine P W → Res X α × Machine P W
  | (.raise e, M) => if e.ordinary then h M else (.raise e, M)
  | r => r

/-- `try: c except Exception: h`. -/
def tryExcept (c h : Comp P X W α) : Comp P X W α := fun M => handle h (c M)

end Comp

instance : Monad (Comp P X W) where
  pure := Comp.pure
  bind := Comp.bind

/-- Run outside code; `cb` carries out the calls of embedded hypertags. -/
def runProc (cb : Callback P → Comp P X W (Val P)) :
    Proc P X W α → (StateId → TState P) → Res X α × Machine P W
  | .ret a m, st => (.ok a, ⟨st, m⟩)
  | .raise e m, st => (.raise e, ⟨st, m⟩)
  | .call c m k, st =>
    match cb c ⟨st, m⟩ with
    | (.ok v, M) => runProc cb (k (.ok v) M.mem) M.states
    | (.raise e, M) => runProc cb (k (.error e) M.mem) M.states
    | (.timeout, M) => (.timeout, M)

/-- `state[slot]`; `none` when uninitialized. structs.py:373, 446-448. -/
def getSlot (σ : StateId) (sl : Slot) : Comp P X W (Option (Val P)) :=
  fun M => (.ok ((M.states σ).values sl), M)

/-- `state` with one component replaced. -/
def Machine.updState (M : Machine P W) (σ : StateId) (f : TState P → TState P) : Machine P W :=
  { M with states := fun τ => if τ = σ then f (M.states τ) else M.states τ }

/-- `state[slot] = value`, structs.py:376-378, 443-444 (`primary` is never set). -/
def setSlot (σ : StateId) (sl : Slot) (v : Val P) : Comp P X W Unit :=
  fun M => (.ok (), M.updState σ (fun s =>
    { s with values := fun t => if t = sl then some v else s.values t }))

/-- `state.indentation`. -/
def curIndent (σ : StateId) : Comp P X W Str := fun M => (.ok (M.states σ).indentation, M)

/-- `state.indentation = ind`. -/
def putIndent (σ : StateId) (ind : Str) : Comp P X W Unit :=
  fun M => (.ok (), M.updState σ (fun s => { s with indentation := ind }))

/-- `state.indent(whitechar)`, structs.py:388-389. -/
def doIndent (σ : StateId) (c : Char) : Comp P X W Unit := do
  let ind ← curIndent σ
  putIndent σ (ind ++ [c])

/-- `state.dedent(whitechar)`, structs.py:391-393. -/
def doDedent (σ : StateId) (c : Char) : Comp P X W Unit := do
  let ind ← curIndent σ
  match ind.getLast? with
  | .none => Comp.raise .index
  | some d => if d = c then putIndent σ ind.dropLast else Comp.raise .assertion

/-- Restore the indentation, whatever the outcome: the `finally` clauses of ast.py:482-483 and
1075-1078. -/
def restoring (σ : StateId) (ind : Str) (r : Res X α × Machine P W) : Res X α × Machine P W :=
  (r.1, r.2.updState σ (fun s => { s with indentation := ind }))

/-- `indent = state.indentation; try: c finally: state.indentation = indent`. -/
def keepIndent (σ : StateId) (c : Comp P X W α) : Comp P X W α :=
  fun M => restoring σ (M.states σ).indentation (c M)

end

/-- Python operations on values, as far as they are not fixed by the constructors of `Val`. -/
structure PyOps (P X W : Type) where
  /-- `bool(p)` -/
  truth : P → PyM P X W Bool
  /-- `str(v)` -/
  str : Val P → PyM P X W Str
  /-- `repr(v)` -/
  repr : Val P → PyM P X W Str
  /-- the value of a numeric literal -/
  number : Str → Val P
  /-- binary operators, by their names in the script -/
  bin : Str → Val P → Val P → PyM P X W (Val P)
  neg : Val P → PyM P X W (Val P)
  /-- `f(*args, **kwargs)` -/
  call : Val P → List (Val P) → List (Str × Val P) → PyM P X W (Val P)
  /-- `obj[i]` -/
  getitem : Val P → Val P → PyM P X W (Val P)
  /-- `obj[slice(*values)]` -/
  slice : Val P → List (Val P) → PyM P X W (Val P)
  getattr : Val P → Str → PyM P X W (Val P)
  mkList : List (Val P) → PyM P X W (Val P)
  mkTuple : List (Val P) → PyM P X W (Val P)
  mkSet : List (Val P) → PyM P X W (Val P)
  mkDict : List (Val P × Val P) → PyM P X W (Val P)
  /-- `iter(v)` -/
  iter : Val P → PyM P X W (Val P)
  /-- `next(it)`; `none` is `StopIteration` -/
  next : Val P → PyM P X W (Option (Val P))
  /-- `list(v)` -/
  toList : Val P → PyM P X W (List (Val P))
  /-- the nodes that an opaque element (a list, a generator, ...) contributes to a `DOM`,
  dom.py:124-129 -/
  flatten : P → PyM P X W (List Ref)
  /-- `isinstance(p, Tag)` -/
  isTag : P → Bool
  /-- `runtime.escape`, ast.py:1103-1104 -/
  escape : Option (Str → PyM P X W Str)
  /-- `DOM.render` (modelled in `Model/Dom.lean`) with the tags' `expand` -/
  render : List Ref → PyM P X W Str

/-- What the evaluator depends on: Python operations; `hypertag.expand(body, attrs, kwattrs, state,
caller)` (the body is a `DOM` or a `DOM.Node`); calls of `EmbeddedHypertag` objects; a bound on the
number of iterations of a single loop. The two functions are tied to the translator in
`Model/Translate.lean`. -/
structure Env (P X W : Type) where
  ops : PyOps P X W
  expand : HVal → Val P → List (Val P) → List (Str × Val P) → StateId → Comp P X W (List Ref)
  call : Callback P → Comp P X W (Val P)
  fuel : Nat

/-- Run outside code on the machine. -/
def runPy {P X W α} (E : Env P X W) (c : PyM P X W α) : Comp P X W α :=
  fun M => runProc E.call (c M.mem) M.states

end Verif
