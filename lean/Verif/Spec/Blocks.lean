import Verif.Model.Script

/-
Predicates on statement trees: proper blocks; the slots that a statement reads and writes. And the
operations of Python that the translator uses.
-/

namespace Verif
open Py

/-- A run of one of the Python operations. -/
inductive PyOp {P X W : Type} (ops : PyOps P X W) : {α : Type} → PyM P X W α → Prop
  | truth (p) : PyOp ops (ops.truth p)
  | str (v) : PyOp ops (ops.str v)
  | repr (v) : PyOp ops (ops.repr v)
  | bin (op a b) : PyOp ops (ops.bin op a b)
  | neg (v) : PyOp ops (ops.neg v)
  | call (f as kw) : PyOp ops (ops.call f as kw)
  | getitem (a b) : PyOp ops (ops.getitem a b)
  | slice (a b) : PyOp ops (ops.slice a b)
  | getattr (a b) : PyOp ops (ops.getattr a b)
  | mkList (vs) : PyOp ops (ops.mkList vs)
  | mkTuple (vs) : PyOp ops (ops.mkTuple vs)
  | mkSet (vs) : PyOp ops (ops.mkSet vs)
  | mkDict (vs) : PyOp ops (ops.mkDict vs)
  | iter (v) : PyOp ops (ops.iter v)
  | next (v) : PyOp ops (ops.next v)
  | toList (v) : PyOp ops (ops.toList v)
  | flatten (v) : PyOp ops (ops.flatten v)
  | escape (f s) : ops.escape = some f → PyOp ops (f s)
  | render (ns) : PyOp ops (ops.render ns)

section
variable {P : Type}

/-! ### Slots read -/

mutual
/-- All slots of names in the expression satisfy `q`. -/
def Expr.reads (q : Option Slot → Prop) : Expr → Prop
  | .root _ e => e.reads q
  | .tagUse _ slot => q slot
  | .varUse _ slot => q slot
  | .factor atom tail _ => atom.reads q ∧ Tail.readsAll q tail
  | .chain _ head _ es => head.reads q ∧ Expr.readsAll q es
  | .concat es => Expr.readsAll q es
  | .bits _ head es => head.reads q ∧ Expr.readsAll q es
  | .pipeline head fs => head.reads q ∧ Expr.readsAll q fs
  | .notTest _ e => e.reads q
  | .andTest head es => head.reads q ∧ Expr.readsAll q es
  | .orTest head es => head.reads q ∧ Expr.readsAll q es
  | .ifElse x t y => x.reads q ∧ t.reads q ∧ Expr.readsOpt q y
  | .list es => Expr.readsAll q es
  | .tuple es => Expr.readsAll q es
  | .set es => Expr.readsAll q es
  | .dict es => Expr.readsAll q es
  | .format es => Expr.readsAll q es
  | .static _ => True
  | .strLit _ => True
  | .number _ => True
  | .boolean _ => True
  | .noneLit => True
  | .sliceNone => True
def Expr.readsAll (q : Option Slot → Prop) : List Expr → Prop
  | [] => True
  | e :: es => e.reads q ∧ Expr.readsAll q es
def Expr.readsOpt (q : Option Slot → Prop) : Option Expr → Prop
  | none => True
  | some e => e.reads q
def Tail.readsAll (q : Option Slot → Prop) : List Tail → Prop
  | [] => True
  | t :: ts => t.reads q ∧ Tail.readsAll q ts
def Tail.reads (q : Option Slot → Prop) : Tail → Prop
  | .call _ args => Expr.readsAll q args
  | .partialCall _ args => Expr.readsAll q args
  | .index es => Expr.readsAll q es
  | .member _ => True
end

def Line.reads (q : Option Slot → Prop) : Line → Prop
  | .verbat _ => True
  | .normal ps => Expr.readsAll q ps
  | .markup ps => Expr.readsAll q ps

def TextItem.reads (q : Option Slot → Prop) : TextItem → Prop
  | .line l => l.reads q
  | _ => True

def TagExp.reads (q : Option Slot → Prop) : TagExp → Prop
  | .tag _ slot us ns => Expr.readsAll q us ∧ (∀ n ∈ ns, n.2.reads q) ∧ q slot
  | .null => True

mutual
/-- Slots read by an in-place assignment. -/
def Target.reads (q : Option Slot → Prop) : Target → Prop
  | .var _ read slotRead _ => read = true → q slotRead
  | .many ts => Target.readsAll q ts
def Target.readsAll (q : Option Slot → Prop) : List Target → Prop
  | [] => True
  | t :: ts => t.reads q ∧ Target.readsAll q ts
end

mutual
/-- All slots that the translation of the statement may read directly, i.e., not counting hypertags that
are expanded, satisfy `q`. -/
def Stmt.reads (q : Option Slot → Prop) : Stmt P → Prop
  | .static _ => True
  | .indent _ => True
  | .dedent _ => True
  | .line l => l.reads q
  | .xblock _ _ b => b.reads q
  | .text _ items => ∀ i ∈ items, i.reads q
  | .comment => True
  | .embed e => e.reads q
  | .struct tags b => (∀ t ∈ tags, t.reads q) ∧ b.reads q
  | .defn _ _ _ _ _ _ => True
  | .imports _ _ _ => True
  | .tryBlock bs => Stmt.readsAll q bs
  | .ifBlock cs els => Stmt.readsClauses q cs ∧ Stmt.readsOpt q els
  | .elseClause b => Stmt.readsOpt q b
  | .whileBlock t b els => t.reads q ∧ Stmt.readsOpt q b ∧ Stmt.readsOpt q els
  | .forBlock _ e rest => e.reads q ∧ Stmt.readsAll q rest
  | .exprBlock e => e.reads q
  | .assign t _ e => e.reads q ∧ t.reads q
  | .body ss => Stmt.readsAll q ss
  | .pass => True
def Stmt.readsAll (q : Option Slot → Prop) : List (Stmt P) → Prop
  | [] => True
  | s :: ss => s.reads q ∧ Stmt.readsAll q ss
def Stmt.readsOpt (q : Option Slot → Prop) : Option (Stmt P) → Prop
  | none => True
  | some s => s.reads q
def Stmt.readsClause (q : Option Slot → Prop) : Expr × Option (Stmt P) → Prop
  | (t, b) => t.reads q ∧ Stmt.readsOpt q b
def Stmt.readsClauses (q : Option Slot → Prop) : List (Expr × Option (Stmt P)) → Prop
  | [] => True
  | c :: cs => Stmt.readsClause q c ∧ Stmt.readsClauses q cs
end

/-! ### Slots written -/

mutual
/-- All slots that assignment to the target writes satisfy `p`. -/
def Target.writes (p : Option Slot → Prop) : Target → Prop
  | .var _ _ _ slot => p slot
  | .many ts => Target.writesAll p ts
def Target.writesAll (p : Option Slot → Prop) : List Target → Prop
  | [] => True
  | t :: ts => t.writes p ∧ Target.writesAll p ts
end

/-- The slots of a `from .. import *` item; `none` before analysis. -/
def wildSlots : Option (List (Slot × Val P)) → List (Option Slot)
  | none => [none]
  | some l => l.map (fun q => some q.1)

/-- The same for an import item. -/
def ImportItem.writes (p : Option Slot → Prop) : ImportItem P → Prop
  | .wild slots => ∀ o ∈ wildSlots slots, p o
  | .name _ _ slot => p (slot.map Prod.fst)
  | .cntx _ _ slot => p (slot.map Prod.fst)

mutual
/-- All slots that the translation of the statement may write directly, i.e., not counting hypertags
that are expanded, satisfy `p`. -/
def Stmt.writes (p : Option Slot → Prop) : Stmt P → Prop
  | .static _ => True
  | .indent _ => True
  | .dedent _ => True
  | .line _ => True
  | .xblock _ _ b => b.writes p
  | .text _ _ => True
  | .comment => True
  | .embed _ => True
  | .struct _ b => b.writes p
  | .defn _ _ slot _ _ _ => p slot
  | .imports _ _ items => ∀ i ∈ items, i.writes p
  | .tryBlock bs => Stmt.writesAll p bs
  | .ifBlock cs els => Stmt.writesClauses p cs ∧ Stmt.writesOpt p els
  | .elseClause b => Stmt.writesOpt p b
  | .whileBlock _ b els => Stmt.writesOpt p b ∧ Stmt.writesOpt p els
  | .forBlock t _ rest => t.writes p ∧ Stmt.writesAll p rest
  | .exprBlock _ => True
  | .assign t _ _ => t.writes p
  | .body ss => Stmt.writesAll p ss
  | .pass => True
def Stmt.writesAll (p : Option Slot → Prop) : List (Stmt P) → Prop
  | [] => True
  | s :: ss => s.writes p ∧ Stmt.writesAll p ss
def Stmt.writesOpt (p : Option Slot → Prop) : Option (Stmt P) → Prop
  | .none => True
  | some s => s.writes p
def Stmt.writesClause (p : Option Slot → Prop) : Expr × Option (Stmt P) → Prop
  | (_, b) => Stmt.writesOpt p b
def Stmt.writesClauses (p : Option Slot → Prop) : List (Expr × Option (Stmt P)) → Prop
  | [] => True
  | c :: cs => Stmt.writesClause p c ∧ Stmt.writesClauses p cs
end

mutual
/-- A proper block: `indent` and `dedent` nodes occur only inside of bodies. -/
def Stmt.isBlock : Stmt P → Prop
  | .indent _ => False
  | .dedent _ => False
  | .xblock _ _ b => b.isBlock
  | .struct _ b => b.isBlock
  | .tryBlock bs => Stmt.allBlocks bs
  | .ifBlock cs els => Stmt.blockClauses cs ∧ Stmt.blockOpt els
  | .elseClause b => Stmt.blockOpt b
  | .whileBlock _ b els => Stmt.blockOpt b ∧ Stmt.blockOpt els
  | .forBlock _ _ rest => Stmt.allBlocks rest
  | _ => True
def Stmt.allBlocks : List (Stmt P) → Prop
  | [] => True
  | s :: ss => s.isBlock ∧ Stmt.allBlocks ss
def Stmt.blockOpt : Option (Stmt P) → Prop
  | .none => True
  | some s => s.isBlock
def Stmt.blockClause : Expr × Option (Stmt P) → Prop
  | (_, b) => Stmt.blockOpt b
def Stmt.blockClauses : List (Expr × Option (Stmt P)) → Prop
  | [] => True
  | c :: cs => Stmt.blockClause c ∧ Stmt.blockClauses cs
end

/-- The default values of attributes only read slots that satisfy `q`. -/
def DefInfo.reads (q : Option Slot → Prop) (d : DefInfo P) : Prop :=
  (∀ a ∈ d.attrs, Expr.readsOpt q a.default) ∧ d.body.reads q

/-- The expansion of the hypertag writes only slots that satisfy `p`, not counting other hypertags. -/
def DefInfo.writes (p : Option Slot → Prop) (d : DefInfo P) : Prop :=
  (∀ a, d.bodyAttr = some a → p a.slot) ∧ (∀ a ∈ d.attrs, p a.slot) ∧ d.body.writes p

end
end Verif
