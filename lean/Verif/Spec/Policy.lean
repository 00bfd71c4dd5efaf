import Verif.Model.Translate
import Verif.Spec.DomEvents

/-!
What values, nodes and memory may contain at any time, and code outside of the model that conforms to it.
-/

namespace Verif.Spec
open Verif.Py

/-- What may occur in a document. -/
structure Policy (P W : Type) where
  /-- objects outside of the model, when `n` nodes have been created -/
  obj : Nat → P → Prop
  /-- the rest of the memory -/
  world : Nat → W → Prop
  /-- texts of nodes -/
  text : Str → Prop
  /-- names of attributes -/
  key : Str → Prop
  /-- external tags -/
  tag : P → Prop
  /-- are hypertags used as functions? -/
  calls : Prop

section
variable {P X W : Type} (L : Policy P W)

namespace Policy

/-- Values, when `n` nodes have been created: they do not refer to other nodes. -/
inductive Value (n : Nat) : Verif.Val P → Prop
  | none : Value n .none
  | bool (b) : Value n (.bool b)
  | str (s) : Value n (.str s)
  | py {p} : L.obj n p → Value n (.py p)
  | dom {ns} : (∀ r ∈ ns, r < n) → Value n (.dom ns)
  | node {r} : r < n → Value n (.node r)
  | hyper (h) : Value n (.hyper h)
  | embedded {h st} : L.calls → Value n (.embedded h st)
  | part {f args kw} : Value n f → (∀ v ∈ args, Value n v) → (∀ a ∈ kw, Value n a.2) → Value n (.part f args kw)

/-- The tag of a node. -/
def nodeTag : Option (NodeTag P) → Prop
  | some (.ext p) => L.tag p
  | _ => True

/-- The class of a node with its tag and attributes. -/
def content (cls : NodeClass) (tag : Option (NodeTag P)) (kw : List (Str × Verif.Val P)) : Prop :=
  match cls with
  | .text s => L.text s
  | _ => (∀ a ∈ kw, L.key a.1) ∧ L.nodeTag tag

/-- A node; everything inside of it is older than the node itself. -/
structure NodeAt (r : Nat) (d : DNode P) : Prop where
  indent : SpaceIndent d.indent
  body : ∀ q ∈ d.body, q < r
  attrs : ∀ v ∈ d.attrs.getD [], L.Value r v
  kwattrs : ∀ a ∈ d.kwattrs.getD [], L.Value r a.2
  content : L.content d.cls d.tag (d.kwattrs.getD [])

/-- The memory accessible to code outside of the model. -/
structure Memory (m : Mem P W) : Prop where
  nodes : ∀ r, r < m.next → L.NodeAt r (m.nodes r)
  world : L.world m.next m.world

/-- The whole memory. -/
structure Store (M : Verif.Machine P W) : Prop where
  mem : L.Memory M.mem
  values : ∀ σ sl v, (M.states σ).values sl = some v → L.Value M.mem.next v
  indent : ∀ σ, ∀ c ∈ (M.states σ).indentation, isSpace c = true

/-- Results of code outside of the model, when at least `k` nodes have been created: the memory is as it should be
after each step, and so is what is passed to hypertags, and what is returned, described by `Q`. -/
def Run {α : Type} (Q : Nat → α → Prop) : Nat → Proc P X W α → Prop
  | k, .ret a m => L.Memory m ∧ k ≤ m.next ∧ Q m.next a
  | k, .raise _ m => L.Memory m ∧ k ≤ m.next
  | k, .call c m f => L.calls ∧ L.Memory m ∧ k ≤ m.next ∧ L.Value m.next c.body ∧ (∀ v ∈ c.attrs, L.Value m.next v) ∧
      (∀ a ∈ c.kwattrs, L.Value m.next a.2) ∧
      ∀ r m', L.Memory m' → m.next ≤ m'.next → (∀ v, r = .ok v → L.Value m'.next v) → Run Q m'.next (f r m')

/-- Operations on proper values, with what their results should be. -/
inductive Op (ops : PyOps P X W) (n : Nat) : {α : Type} → (Nat → α → Prop) → PyM P X W α → Prop
  | truth {p} : L.obj n p → Op ops n (fun _ _ => True) (ops.truth p)
  | str {v} : L.Value n v → Op ops n (fun _ _ => True) (ops.str v)
  | repr {v} : L.Value n v → Op ops n (fun _ _ => True) (ops.repr v)
  | bin {op a b} : L.Value n a → L.Value n b → Op ops n L.Value (ops.bin op a b)
  | neg {v} : L.Value n v → Op ops n L.Value (ops.neg v)
  | call {f as kw} : L.Value n f → (∀ v ∈ as, L.Value n v) → (∀ a ∈ kw, L.Value n a.2) → Op ops n L.Value (ops.call f as kw)
  | getitem {a b} : L.Value n a → L.Value n b → Op ops n L.Value (ops.getitem a b)
  | slice {a bs} : L.Value n a → (∀ v ∈ bs, L.Value n v) → Op ops n L.Value (ops.slice a bs)
  | getattr {a name} : L.Value n a → Op ops n L.Value (ops.getattr a name)
  | mkList {vs} : (∀ v ∈ vs, L.Value n v) → Op ops n L.Value (ops.mkList vs)
  | mkTuple {vs} : (∀ v ∈ vs, L.Value n v) → Op ops n L.Value (ops.mkTuple vs)
  | mkSet {vs} : (∀ v ∈ vs, L.Value n v) → Op ops n L.Value (ops.mkSet vs)
  | mkDict {vs} : (∀ v ∈ vs, L.Value n v.1 ∧ L.Value n v.2) → Op ops n L.Value (ops.mkDict vs)
  | iter {v} : L.Value n v → Op ops n L.Value (ops.iter v)
  | next {v} : L.Value n v → Op ops n (fun m o => ∀ v, o = some v → L.Value m v) (ops.next v)
  | toList {v} : L.Value n v → Op ops n (fun m vs => ∀ v ∈ vs, L.Value m v) (ops.toList v)
  | flatten {p} : L.obj n p → Op ops n (fun m ns => ∀ r ∈ ns, r < m) (ops.flatten p)
  | escape {f s} : ops.escape = some f → Op ops n (fun _ t => L.text t) (f s)
  | render {ns} : (∀ r ∈ ns, r < n) → Op ops n (fun _ _ => True) (ops.render ns)

/-- Code outside of the model conforms to the policy. -/
structure Honest (ops : PyOps P X W) : Prop where
  run : ∀ {n : Nat} {α : Type} {Q : Nat → α → Prop} {c : PyM P X W α}, L.Op ops n Q c →
    ∀ m, L.Memory m → n ≤ m.next → L.Run Q m.next (c m)
  number : ∀ t, L.Value 0 (ops.number t)
  escape : ops.escape = none → ∀ s, L.text s
  tag : ∀ {n p}, L.obj n p → ops.isTag p = true → L.tag p

/-- What texts and objects are allowed does not depend on unrelated things. -/
structure Laws : Prop where
  obj_mono : ∀ {n m p}, n ≤ m → L.obj n p → L.obj m p
  world_mono : ∀ {n m w}, n ≤ m → L.world n w → L.world m w
  blank : ∀ {s : Str}, (∀ c ∈ s, isSpace c = true) → L.text s
  append : ∀ {s t : Str}, L.text s → L.text t → L.text (s ++ t)
  layout : ∀ lead {s : Str}, L.text s → L.text (layoutText lead s)
  calls : L.calls → ∀ s, L.text s

end Policy

/-! ### Scripts that conform to the policy -/

mutual
/-- Tags are used in the expression only if `c`. -/
def _root_.Verif.Expr.tagsIf (c : Prop) : Expr → Prop
  | .root _ e => e.tagsIf c
  | .tagUse _ _ => c
  | .varUse _ _ => True
  | .factor atom tail _ => atom.tagsIf c ∧ Tail.tagsIfAll c tail
  | .chain _ head _ es => head.tagsIf c ∧ Expr.tagsIfAll c es
  | .concat es => Expr.tagsIfAll c es
  | .bits _ head es => head.tagsIf c ∧ Expr.tagsIfAll c es
  | .pipeline head fs => head.tagsIf c ∧ Expr.tagsIfAll c fs
  | .notTest _ e => e.tagsIf c
  | .andTest head es => head.tagsIf c ∧ Expr.tagsIfAll c es
  | .orTest head es => head.tagsIf c ∧ Expr.tagsIfAll c es
  | .ifElse x t y => x.tagsIf c ∧ t.tagsIf c ∧ Expr.tagsIfOpt c y
  | .list es => Expr.tagsIfAll c es
  | .tuple es => Expr.tagsIfAll c es
  | .set es => Expr.tagsIfAll c es
  | .dict es => Expr.tagsIfAll c es
  | .format es => Expr.tagsIfAll c es
  | .static _ => True
  | .strLit _ => True
  | .number _ => True
  | .boolean _ => True
  | .noneLit => True
  | .sliceNone => True
def _root_.Verif.Expr.tagsIfAll (c : Prop) : List Expr → Prop
  | [] => True
  | e :: es => e.tagsIf c ∧ Expr.tagsIfAll c es
def _root_.Verif.Expr.tagsIfOpt (c : Prop) : Option Expr → Prop
  | none => True
  | some e => e.tagsIf c
def _root_.Verif.Tail.tagsIfAll (c : Prop) : List Tail → Prop
  | [] => True
  | t :: ts => t.tagsIf c ∧ Tail.tagsIfAll c ts
def _root_.Verif.Tail.tagsIf (c : Prop) : Tail → Prop
  | .call _ args => Expr.tagsIfAll c args
  | .partialCall _ args => Expr.tagsIfAll c args
  | .index es => Expr.tagsIfAll c es
  | .member _ => True
end

namespace Policy

/-- Lines: those that are not escaped must be proper texts as they are. -/
def Line : Verif.Line → Prop
  | .verbat s => L.text s
  | .normal ps => Expr.tagsIfAll L.calls ps
  | .markup ps => (∀ s, L.text s) ∧ Expr.tagsIfAll L.calls ps

def Item : TextItem → Prop
  | .line l => L.Line l
  | .margin s => L.text s
  | .indent c => isSpace c = true
  | .dedent _ => True

def Tag : TagExp → Prop
  | .tag _ _ us ns => Expr.tagsIfAll L.calls us ∧ ∀ n ∈ ns, L.key n.1 ∧ n.2.tagsIf L.calls
  | .null => True

/-- Imported values. -/
def Import (n : Nat) : ImportItem P → Prop
  | .wild slots => ∀ l, slots = some l → ∀ a ∈ l, L.Value n a.2
  | .name _ _ slot => ∀ a, slot = some a → L.Value n a.2
  | .cntx _ _ slot => ∀ a, slot = some a → L.Value n a.2

mutual
/-- Statements; `n` nodes have been created before. -/
def Stmt (n : Nat) : Verif.Stmt P → Prop
  | .static s => L.text s
  | .indent c => isSpace c = true
  | .dedent _ => True
  | .line l => L.Line l
  | .xblock margin _ b => L.text margin ∧ Stmt n b
  | .text _ items => ∀ i ∈ items, L.Item i
  | .comment => True
  | .embed e => e.tagsIf L.calls
  | .struct tags b => (∀ t ∈ tags, L.Tag t) ∧ Stmt n b
  | .defn _ _ _ ba as b => (∀ a ∈ ba, L.key a.name ∧ Expr.tagsIfOpt L.calls a.default) ∧
      (∀ a ∈ as, L.key a.name ∧ Expr.tagsIfOpt L.calls a.default) ∧ Stmt n b
  | .imports _ _ items => ∀ i ∈ items, L.Import n i
  | .tryBlock bs => Stmts n bs
  | .ifBlock cs els => Clauses n cs ∧ OptStmt n els
  | .elseClause b => OptStmt n b
  | .whileBlock t b els => t.tagsIf L.calls ∧ OptStmt n b ∧ OptStmt n els
  | .forBlock _ e rest => e.tagsIf L.calls ∧ Stmts n rest
  | .exprBlock e => e.tagsIf L.calls
  | .assign _ _ e => e.tagsIf L.calls
  | .body ss => Stmts n ss
  | .pass => True
def Stmts (n : Nat) : List (Verif.Stmt P) → Prop
  | [] => True
  | s :: ss => Stmt n s ∧ Stmts n ss
def OptStmt (n : Nat) : Option (Verif.Stmt P) → Prop
  | none => True
  | some s => Stmt n s
def Clause (n : Nat) : Expr × Option (Verif.Stmt P) → Prop
  | (t, b) => t.tagsIf L.calls ∧ OptStmt n b
def Clauses (n : Nat) : List (Expr × Option (Verif.Stmt P)) → Prop
  | [] => True
  | c :: cs => Clause n c ∧ Clauses n cs
end

/-- Definitions of hypertags. -/
structure Definition (n : Nat) (d : DefInfo P) : Prop where
  attrs : ∀ a ∈ d.attrs, L.key a.name ∧ Expr.tagsIfOpt L.calls a.default
  bodyAttr : ∀ a, d.bodyAttr = some a → L.key a.name
  body : L.Stmt n d.body

/-- Documents. -/
structure Doc (n : Nat) (d : Document P) : Prop where
  slotsIn : ∀ a ∈ d.slotsIn, L.Value n a.2
  children : L.Stmts n d.children

end Policy
end
end Verif.Spec
