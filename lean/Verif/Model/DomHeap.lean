import Verif.Model.DomTree

/-
`copy` and `skip` on a heap of mutable objects: `src/hypertag/core/dom.py`, lines 143-149, 165-186,
218-259, 364-374, 391-396.

Node objects, `DOM` objects, lists of attributes and dicts of attributes are separate objects, referred
to by their number (address). Objects may be shared and may even form cycles. Recursion is bounded by
`fuel`, like Python's recursion limit; running out of it is the error `recursion`.
-/

namespace Verif
open Py

/-- An object in memory. `D`: the immutable fields of a node (class, text, outline, indent). -/
inductive HObj (V D : Type) where
  | node (tag : Option (Nat × Str)) (attrs kwattrs body : Option Nat) (rest : D)
  | dom (nodes : List Nat)
  | list (items : List V)
  | dict (items : Dict Str V)

abbrev Heap (V D : Type) := List (HObj V D)

/-- `type`: TypeError in `_test`; `attribute`: an object of an unexpected class; `recursion`:
RecursionError. -/
inductive HeapErr where
  | type
  | attribute
  | recursion
  deriving DecidableEq, Repr

section
variable {V D : Type}

abbrev HeapM (V D α : Type) := Heap V D → Except HeapErr (α × Heap V D)

/-- `copy.copy(x)` for `x` a list, a dict or `None`. -/
def copyAttrs (r : Option Nat) : HeapM V D (Option Nat) := fun h =>
  match r with
  | none => .ok (none, h)
  | some r =>
    match h[r]? with
    | some (.list l) => .ok (some h.length, h ++ [.list l])
    | some (.dict d) => .ok (some h.length, h ++ [.dict d])
    | _ => .error .attribute

/-- `[f(x) for x in l]`. -/
def hmap (f : Nat → HeapM V D Nat) : List Nat → HeapM V D (List Nat)
  | [], h => .ok ([], h)
  | x :: xs, h =>
    match f x h with
    | .error e => .error e
    | .ok (y, h) =>
      match hmap f xs h with
      | .error e => .error e
      | .ok (ys, h) => .ok (y :: ys, h)

mutual
/-- `DOM.copy()`, dom.py:143-149. `copy(self)` first makes an object with the same list of nodes. -/
def copyDom : Nat → Nat → HeapM V D Nat
  | 0, _, _ => .error .recursion
  | n + 1, r, h =>
    match h[r]? with
    | some (.dom ns) =>
      let dup := h.length
      match hmap (copyNode n) ns (h ++ [.dom ns]) with
      | .error e => .error e
      | .ok (ns', h') => .ok (dup, h'.set dup (.dom ns'))
    | _ => .error .attribute
/-- `Node.copy()`, dom.py:364-374. -/
def copyNode : Nat → Nat → HeapM V D Nat
  | 0, _, _ => .error .recursion
  | n + 1, r, h =>
    match h[r]? with
    | some (.node tag attrs kwattrs body rest) =>
      let dup := h.length
      match copyAttrs attrs (h ++ [.node tag attrs kwattrs body rest]) with
      | .error e => .error e
      | .ok (attrs', h1) =>
        match copyAttrs kwattrs (h1.set dup (.node tag attrs' kwattrs body rest)) with
        | .error e => .error e
        | .ok (kwattrs', h2) =>
          copyBody n tag attrs' kwattrs' rest dup body
            (h2.set dup (.node tag attrs' kwattrs' body rest))
    | _ => .error .attribute
/-- The last lines of `Node.copy()`, dom.py:371-374. -/
def copyBody : Nat → Option (Nat × Str) → Option Nat → Option Nat → D → Nat → Option Nat → HeapM V D Nat
  | _, _, _, _, _, dup, none, h => .ok (dup, h)
  | 0, _, _, _, _, _, some _, _ => .error .recursion
  | n + 1, tag, attrs, kwattrs, rest, dup, some b, h =>
    match copyDom n b h with
    | .error e => .error e
    | .ok (b', h') => .ok (dup, h'.set dup (.node tag attrs kwattrs (some b') rest))
end

/-- `node.kwattrs` as a dict. -/
def readKw (h : Heap V D) : Option Nat → Except HeapErr (Option (Dict Str V))
  | none => .ok none
  | some r =>
    match h[r]? with
    | some (.dict d) => .ok (some d)
    | _ => .error .attribute

variable (ne : V → V → Bool) (c : Constr V)

/-- `self._test(node, tag, name, attrs)`, dom.py:249-259. -/
def heapTest (h : Heap V D) (r : Nat) : Except HeapErr Bool :=
  match h[r]? with
  | some (.node tag _ kwattrs _ rest) =>
    match readKw h kwattrs with
    | .error e => .error e
    | .ok kw =>
      match testNode ne c { tag := tag, attrs := none, kwattrs := kw, rest := rest } with
      | .ok b => .ok b
      | .error .type => .error .type
  | _ => .error .attribute

/-- The nodes yielded by `drop` for a list of nodes, dom.py:180-181, 228-231. -/
def heapDrop (h : Heap V D) : List Nat → Except HeapErr (List Nat)
  | [] => .ok []
  | r :: rs =>
    match heapTest ne c h r with
    | .error e => .error e
    | .ok b =>
      match heapDrop h rs with
      | .error e => .error e
      | .ok rs' => .ok (if b then rs' else r :: rs')

/-- `for x in l: f(x)`. -/
def hforEach (f : Nat → Heap V D → Except HeapErr (Heap V D)) :
    List Nat → Heap V D → Except HeapErr (Heap V D)
  | [], h => .ok h
  | x :: xs, h =>
    match f x h with
    | .error e => .error e
    | .ok h => hforEach f xs h

/-- `self.nodes = self._flatten(new_nodes)` with the transform `drop`, dom.py:180-181. `self.nodes` is
read again after the loop. -/
def heapReplace (r : Nat) (h : Heap V D) : Except HeapErr (Heap V D) :=
  match h[r]? with
  | some (.dom ns) =>
    match heapDrop ne c h ns with
    | .error e => .error e
    | .ok ns' => .ok (h.set r (.dom ns'))
  | _ => .error .attribute

/-- `if self.body:`, dom.py:395: `DOM.__bool__` is true iff there are nodes. -/
def domTrue (h : Heap V D) : Option Nat → Except HeapErr Bool
  | none => .ok false
  | some b =>
    match h[b]? with
    | some (.dom ns) => .ok (!ns.isEmpty)
    | _ => .error .attribute

mutual
/-- `dom.alter(drop)`, dom.py:165-186 with `order = 'preorder'`, `skip = None`. -/
def alterDom : Nat → Nat → Heap V D → Except HeapErr (Heap V D)
  | 0, _, _ => .error .recursion
  | n + 1, r, h =>
    match h[r]? with
    | some (.dom ns) =>
      match hforEach (alterNode n) ns h with
      | .error e => .error e
      | .ok h => heapReplace ne c r h
    | _ => .error .attribute
/-- `node.alter(drop)`, dom.py:391-396. -/
def alterNode : Nat → Nat → Heap V D → Except HeapErr (Heap V D)
  | 0, _, _ => .error .recursion
  | n + 1, r, h =>
    match h[r]? with
    | some (.node _ _ _ body _) =>
      match domTrue h body, body with
      | .error e, _ => .error e
      | .ok true, some b => alterDom n b h
      | .ok _, _ => .ok h
    | _ => .error .attribute
end

/-- `dom.skip(tag, attr, value, **attrs)`, dom.py:218-233. The result is the address of the new DOM. -/
def heapSkip (fuel : Nat) (r : Nat) (tag : TagArg) (attr : Option (Str × Option V))
    (attrs : Dict Str (Option V)) : HeapM V D Nat := fun h =>
  match copyDom fuel r h with
  | .error e => .error e
  | .ok (d, h) =>
    match alterDom ne (constraint tag attr attrs) fuel d h with
    | .error e => .error e
    | .ok h => .ok (d, h)

end
end Verif
