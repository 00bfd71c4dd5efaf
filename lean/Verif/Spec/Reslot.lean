import Verif.Spec.Scope
import Verif.Spec.Blocks
import Verif.Model.Translate

/-! Scripts, after analysis, that differ in the identities of slots only. -/

namespace Verif
open Py

section
variable {P I : Type}

mutual
def Expr.reslot (f : Slot → Slot) : Expr → Expr
  | .root q e => .root q (e.reslot f)
  | .tagUse sym slot => .tagUse sym (slot.map f)
  | .varUse name slot => .varUse name (slot.map f)
  | .factor atom tail q => .factor (atom.reslot f) (Tail.reslotAll f tail) q
  | .chain neg head ops es => .chain neg (head.reslot f) ops (Expr.reslotAll f es)
  | .concat es => .concat (Expr.reslotAll f es)
  | .bits op head es => .bits op (head.reslot f) (Expr.reslotAll f es)
  | .pipeline head fs => .pipeline (head.reslot f) (Expr.reslotAll f fs)
  | .notTest n e => .notTest n (e.reslot f)
  | .andTest head es => .andTest (head.reslot f) (Expr.reslotAll f es)
  | .orTest head es => .orTest (head.reslot f) (Expr.reslotAll f es)
  | .ifElse x t y => .ifElse (x.reslot f) (t.reslot f) (Expr.reslotOpt f y)
  | .list es => .list (Expr.reslotAll f es)
  | .tuple es => .tuple (Expr.reslotAll f es)
  | .set es => .set (Expr.reslotAll f es)
  | .dict es => .dict (Expr.reslotAll f es)
  | .format es => .format (Expr.reslotAll f es)
  | .static s => .static s
  | .strLit s => .strLit s
  | .number t => .number t
  | .boolean v => .boolean v
  | .noneLit => .noneLit
  | .sliceNone => .sliceNone
def Expr.reslotAll (f : Slot → Slot) : List Expr → List Expr
  | [] => []
  | e :: es => e.reslot f :: Expr.reslotAll f es
def Expr.reslotOpt (f : Slot → Slot) : Option Expr → Option Expr
  | none => none
  | some e => some (e.reslot f)
def Tail.reslotAll (f : Slot → Slot) : List Tail → List Tail
  | [] => []
  | t :: ts => t.reslot f :: Tail.reslotAll f ts
def Tail.reslot (f : Slot → Slot) : Tail → Tail
  | .call names args => .call names (Expr.reslotAll f args)
  | .partialCall names args => .partialCall names (Expr.reslotAll f args)
  | .index es => .index (Expr.reslotAll f es)
  | .member n => .member n
end

mutual
def Target.reslot (f : Slot → Slot) : Target → Target
  | .var name read r w => .var name read (r.map f) (w.map f)
  | .many ts => .many (Target.reslotAll f ts)
def Target.reslotAll (f : Slot → Slot) : List Target → List Target
  | [] => []
  | t :: ts => t.reslot f :: Target.reslotAll f ts
end

def Line.reslot (f : Slot → Slot) : Line → Line
  | .verbat s => .verbat s
  | .normal ps => .normal (Expr.reslotAll f ps)
  | .markup ps => .markup (Expr.reslotAll f ps)

def TextItem.reslot (f : Slot → Slot) : TextItem → TextItem
  | .line l => .line (l.reslot f)
  | .margin s => .margin s
  | .indent c => .indent c
  | .dedent c => .dedent c

def TagExp.reslot (f : Slot → Slot) : TagExp → TagExp
  | .tag name slot us ns => .tag name (slot.map f) (Expr.reslotAll f us) (ns.map (fun n => (n.1, n.2.reslot f)))
  | .null => .null

def AttrDef.reslot (f : Slot → Slot) (a : AttrDef) : AttrDef :=
  { a with default := Expr.reslotOpt f a.default, slot := a.slot.map f }

def ImportItem.reslot (f : Slot → Slot) : ImportItem P → ImportItem P
  | .wild slots => .wild (slots.map (List.map fun x => (f x.1, x.2)))
  | .name sym ren slot => .name sym ren (slot.map fun x => (f x.1, x.2))
  | .cntx sym ren slot => .cntx sym ren (slot.map fun x => (f x.1, x.2))

mutual
/-- The statement with other slots. -/
def Stmt.reslot (f : Slot → Slot) : Stmt P → Stmt P
  | .static s => .static s
  | .indent c => .indent c
  | .dedent c => .dedent c
  | .line l => .line (l.reslot f)
  | .xblock m mo b => .xblock m mo (b.reslot f)
  | .text lead items => .text lead (items.map (TextItem.reslot f))
  | .comment => .comment
  | .embed e => .embed (e.reslot f)
  | .struct tags b => .struct (tags.map (TagExp.reslot f)) (b.reslot f)
  | .defn id name slot ba as b => .defn id name (slot.map f) (ba.map (AttrDef.reslot f)) (as.map (AttrDef.reslot f)) (b.reslot f)
  | .imports c path items => .imports c path (items.map (ImportItem.reslot f))
  | .tryBlock bs => .tryBlock (Stmt.reslotAll f bs)
  | .ifBlock cs els => .ifBlock (Stmt.reslotClauses f cs) (Stmt.reslotOpt f els)
  | .elseClause b => .elseClause (Stmt.reslotOpt f b)
  | .whileBlock t b els => .whileBlock (t.reslot f) (Stmt.reslotOpt f b) (Stmt.reslotOpt f els)
  | .forBlock t e rest => .forBlock (t.reslot f) (e.reslot f) (Stmt.reslotAll f rest)
  | .exprBlock e => .exprBlock (e.reslot f)
  | .assign t op e => .assign (t.reslot f) op (e.reslot f)
  | .body ss => .body (Stmt.reslotAll f ss)
  | .pass => .pass
def Stmt.reslotAll (f : Slot → Slot) : List (Stmt P) → List (Stmt P)
  | [] => []
  | s :: ss => s.reslot f :: Stmt.reslotAll f ss
def Stmt.reslotOpt (f : Slot → Slot) : Option (Stmt P) → Option (Stmt P)
  | none => none
  | some s => some (s.reslot f)
def Stmt.reslotClause (f : Slot → Slot) : Expr × Option (Stmt P) → Expr × Option (Stmt P)
  | (t, b) => (t.reslot f, Stmt.reslotOpt f b)
def Stmt.reslotClauses (f : Slot → Slot) : List (Expr × Option (Stmt P)) → List (Expr × Option (Stmt P))
  | [] => []
  | c :: cs => Stmt.reslotClause f c :: Stmt.reslotClauses f cs
end

/-- A document with other slots. -/
def Document.reslot (f : Slot → Slot) (doc : Document P) : Document P :=
  ⟨doc.slotsIn.map (fun x => (f x.1, x.2)), Stmt.reslotAll f doc.children, doc.slotsOut.map (fun x => (x.1, f x.2))⟩

def DefInfo.reslot (f : Slot → Slot) (d : DefInfo P) : DefInfo P :=
  ⟨d.bodyAttr.map (AttrDef.reslot f), d.attrs.map (AttrDef.reslot f), d.body.reslot f⟩

/-- No symbol of the statement has a slot: a part of a script that was not analysed, as the parser created it. -/
def Stmt.bare (s : Stmt P) : Prop := (∀ f, s.reslot f = s) ∧ s.writes (· = none) ∧ ∀ d ∈ s.defs, d.2.writes (· = none)

mutual
/-- There is no context block in the statement. -/
def Stmt.noContext : Stmt P → Prop
  | .xblock _ _ b => b.noContext
  | .struct _ b => b.noContext
  | .defn _ _ _ _ _ b => b.noContext
  | .imports context _ _ => context = false
  | .tryBlock bs => Stmt.noContextAll bs
  | .ifBlock cs els => Stmt.noContextClauses cs ∧ Stmt.noContextOpt els
  | .elseClause b => Stmt.noContextOpt b
  | .whileBlock _ b els => Stmt.noContextOpt b ∧ Stmt.noContextOpt els
  | .forBlock _ _ rest => Stmt.noContextAll rest
  | .body ss => Stmt.noContextAll ss
  | _ => True
def Stmt.noContextAll : List (Stmt P) → Prop
  | [] => True
  | s :: ss => s.noContext ∧ Stmt.noContextAll ss
def Stmt.noContextOpt : Option (Stmt P) → Prop
  | none => True
  | some s => s.noContext
def Stmt.noContextClause : Expr × Option (Stmt P) → Prop
  | (_, b) => Stmt.noContextOpt b
def Stmt.noContextClauses : List (Expr × Option (Stmt P)) → Prop
  | [] => True
  | c :: cs => Stmt.noContextClause c ∧ Stmt.noContextClauses cs
end

/-- All slots of the hypertag are below `m`: it does not matter what becomes of the others. -/
def DefInfo.below (m : Slot) (d : DefInfo P) : Prop := ∀ h : Slot → Slot, (∀ n, n < m → h n = n) → d.reslot h = d

/-- The same for a document. -/
def Document.below (m : Slot) (doc : Document P) : Prop := ∀ h : Slot → Slot, (∀ n, n < m → h n = n) → doc.reslot h = doc

/-- Two documents in turn, under a common root: the builtins of each have slots of their own. -/
def inTurn {X W : Type} (E : Env P X W) (σ : StateId) (doc1 doc2 : Document P) : Comp P X W (Ref × Dict Str (Val P)) := do
  setSlots σ doc1.slotsIn
  setSlots σ doc2.slotsIn
  let a ← translAll E σ doc1.children
  let b ← translAll E σ doc2.children
  let root ← newNode .root (a ++ b) (some ['\n']) .none .none .none
  let n ← readNode root
  writeNode root { n with indent := some [] }
  let symbols ← readSymbols σ (doc1.slotsOut ++ doc2.slotsOut)
  return (root, symbols)

end

end Verif
