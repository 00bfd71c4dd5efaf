import Verif.Model.Translate

/-
A miniature Python for the examples that accompany the theorems: numbers, sequences, iterators,
functions and tags, with a log of side effects. No theorem depends on it, except those that exhibit a
counterexample.
-/

namespace Verif.Toy
open Verif Py

/-- Objects. `fn k`: a function that logs `k`; `flip`: an object whose truth value is different every
time; `bad`: an object whose truth test raises. -/
inductive Obj where
  | num (n : Nat)
  | seq (l : List Obj)
  | iter (i : Nat)
  | fn (k : Nat)
  | tag (name : Nat)
  | flip
  | bad

/-- The world: pending items of all iterators, and the log. -/
structure World where
  iters : List (List Obj)
  log : List Nat

abbrev V := Val Obj
abbrev M := Machine Obj World
abbrev PyT (α : Type) := PyM Obj Nat World α

def fail {α} (n : Nat) : PyT α := fun m => .raise (.user n) m
def ret {α} (a : α) : PyT α := fun m => .ret a m
def logging (k : Nat) {α} (a : α) : PyT α := fun m =>
  .ret a { m with world := { m.world with log := m.world.log ++ [k] } }

def truth : Obj → PyT Bool
  | .num n => ret (decide (n ≠ 0))
  | .seq l => ret (!l.isEmpty)
  | .flip => fun m => .ret (m.world.log.length % 2 = 0)
      { m with world := { m.world with log := m.world.log ++ [99] } }
  | .bad => fail 0
  | _ => ret true

/-- Functions: `fn 0` raises `KeyboardInterrupt`, `fn 1` fails, any other `fn k` logs `k` and returns
`100 * first + second + k` (with missing arguments 0). -/
def call : Val Obj → List (Val Obj) → List (Str × Val Obj) → PyT (Val Obj)
  | .py (.fn 0), _, _ => fun m => .raise (.base 0) m
  | .py (.fn 1), _, _ => fail 1
  | .py (.fn k), [], _ => logging k (.py (.num k))
  | .py (.fn k), [.py (.num a)], _ => logging k (.py (.num (100 * a + k)))
  | .py (.fn k), .py (.num a) :: .py (.num b) :: _, _ => logging k (.py (.num (100 * a + b + k)))
  | _, _, _ => fail 2

def bin : Str → Val Obj → Val Obj → PyT (Val Obj)
  | ['+'], .py (.num a), .py (.num b) => ret (.py (.num (a + b)))
  | ['-'], .py (.num a), .py (.num b) => if a < b then fail 3 else ret (.py (.num (a - b)))
  | ['*'], .py (.num a), .py (.num b) => ret (.py (.num (a * b)))
  | _, _, _ => fail 3

def iter : Val Obj → PyT (Val Obj)
  | .py (.seq l) => fun m => .ret (.py (.iter m.world.iters.length))
      { m with world := { m.world with iters := m.world.iters ++ [l] } }
  | _ => fail 4

def nextIter (i : Nat) (m : Mem Obj World) : Option Obj × Mem Obj World :=
  match m.world.iters[i]? with
  | some (x :: xs) => (some x, { m with world := { m.world with iters := m.world.iters.set i xs } })
  | _ => (none, m)

def next : Val Obj → PyT (Option (Val Obj))
  | .py (.iter i) => fun m => .ret ((nextIter i m).1.map .py) (nextIter i m).2
  | _ => fail 5

def toList : Val Obj → PyT (List (Val Obj))
  | .py (.seq l) => ret (l.map .py)
  | _ => fail 6

def isTag : Obj → Bool
  | .tag _ => true
  | _ => false

def str : Val Obj → PyT Str
  | .str s => ret s
  | .py (.num n) => ret (Nat.repr n).toList
  | _ => fail 7

/-- Sequences contain numbers, sequences, functions, .. only. -/
def toSeq (vs : List (Val Obj)) : PyT (Val Obj) :=
  ret (.py (.seq (vs.filterMap (fun | .py p => some p | _ => none))))

def getitem : Val Obj → Val Obj → PyT (Val Obj)
  | .py (.seq l), .py (.num n) => fun m =>
    match l[n]? with
    | some x => .ret (.py x) m
    | none => .raise (.user 9) m
  | _, _ => fail 9

def slice : Val Obj → List (Val Obj) → PyT (Val Obj)
  | .py (.seq l), [.py (.num a), .py (.num b)] => ret (.py (.seq ((l.take b).drop a)))
  | .py (.seq l), [.py (.num a), .none] => ret (.py (.seq (l.drop a)))
  | _, _ => fail 9

/-- The texts below the given nodes, to the given depth; tags are left out. -/
def render : Nat → Mem Obj World → List Ref → Str
  | 0, _, _ => []
  | k + 1, m, rs => rs.flatMap (fun r =>
    match (m.nodes r).cls with
    | .text s => s
    | _ => render k m (m.nodes r).body)

def ops : PyOps Obj Nat World where
  truth := truth
  str := str
  repr := fun _ => ret []
  number := fun t => .py (.num t.length)
  bin := bin
  neg := fun _ => fail 8
  call := call
  getitem := getitem
  slice := slice
  getattr := fun _ _ => fail 9
  mkList := toSeq
  mkTuple := toSeq
  mkSet := fun _ => fail 10
  mkDict := fun _ => fail 10
  iter := iter
  next := next
  toList := toList
  flatten := fun _ => ret []
  isTag := isTag
  escape := some (fun s => ret (s.flatMap (fun c => if c = '<' then (s!!"&lt;") else [c])))
  render := fun rs m => .ret (render 10 m rs) m

/-- The environment without hypertags; loops of at most 10 iterations. -/
def env : Env Obj Nat World where
  ops := ops
  expand := fun _ _ _ _ _ => Comp.timeout
  call := fun _ => Comp.timeout
  fuel := 10

/-- Machine with given values of the slots 0, 1, .. of state 0. -/
def machine (vals : List V) : M where
  states := fun _ => { values := fun sl => vals[sl]?, indentation := ['\n'] }
  mem := { nodes := fun _ => { cls := .node }, next := 0, world := ⟨[], []⟩ }

def num (n : Nat) : V := .py (.num n)

/-- The variable in slot `i`. -/
def v (i : Nat) : Expr := .varUse (s!!"x") (some i)

/-- `f()` for the function in slot `i`. -/
def f (i : Nat) : Expr := .factor (v i) [.call [] []] .none

/-- The result and the log. -/
def run {α} (c : Comp Obj Nat World α) (m : M) : Res Nat α × List Nat :=
  ((c m).1, (c m).2.mem.world.log)

end Verif.Toy
