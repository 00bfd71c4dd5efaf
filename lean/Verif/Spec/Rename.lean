import Verif.Spec.Scope
import Verif.Model.Translate

/-! Scripts that differ in names only. -/

namespace Verif
open Py

/-- New names of variables and of tags. -/
structure Renaming where
  var : Str → Str
  tag : Str → Str

/-- Different names stay different, and names do not become empty. -/
structure Renaming.Good (f : Renaming) : Prop where
  var : Function.Injective f.var
  tag : Function.Injective f.tag
  varNil : ∀ n, f.var n = [] ↔ n = []
  tagNil : ∀ n, f.tag n = [] ↔ n = []

/-- The new symbol. -/
def Renaming.sym (f : Renaming) : Str → Str
  | [] => []
  | c :: n => if c = '$' then '$' :: f.var n else if c = '%' then '%' :: f.tag n else c :: n

section
variable {P I : Type}

mutual
def Expr.rename (f : Renaming) : Expr → Expr
  | .root q e => .root q (e.rename f)
  | .tagUse sym slot => .tagUse (f.sym sym) slot
  | .varUse name slot => .varUse (f.var name) slot
  | .factor atom tail q => .factor (atom.rename f) (Tail.renameAll f tail) q
  | .chain neg head ops es => .chain neg (head.rename f) ops (Expr.renameAll f es)
  | .concat es => .concat (Expr.renameAll f es)
  | .bits op head es => .bits op (head.rename f) (Expr.renameAll f es)
  | .pipeline head fs => .pipeline (head.rename f) (Expr.renameAll f fs)
  | .notTest n e => .notTest n (e.rename f)
  | .andTest head es => .andTest (head.rename f) (Expr.renameAll f es)
  | .orTest head es => .orTest (head.rename f) (Expr.renameAll f es)
  | .ifElse x t y => .ifElse (x.rename f) (t.rename f) (Expr.renameOpt f y)
  | .list es => .list (Expr.renameAll f es)
  | .tuple es => .tuple (Expr.renameAll f es)
  | .set es => .set (Expr.renameAll f es)
  | .dict es => .dict (Expr.renameAll f es)
  | .format es => .format (Expr.renameAll f es)
  | .static s => .static s
  | .strLit s => .strLit s
  | .number t => .number t
  | .boolean v => .boolean v
  | .noneLit => .noneLit
  | .sliceNone => .sliceNone
def Expr.renameAll (f : Renaming) : List Expr → List Expr
  | [] => []
  | e :: es => e.rename f :: Expr.renameAll f es
def Expr.renameOpt (f : Renaming) : Option Expr → Option Expr
  | none => none
  | some e => some (e.rename f)
def Tail.renameAll (f : Renaming) : List Tail → List Tail
  | [] => []
  | t :: ts => t.rename f :: Tail.renameAll f ts
/-- Keywords of calls and names of members are not names of variables. -/
def Tail.rename (f : Renaming) : Tail → Tail
  | .call names args => .call names (Expr.renameAll f args)
  | .partialCall names args => .partialCall names (Expr.renameAll f args)
  | .index es => .index (Expr.renameAll f es)
  | .member n => .member n
end

mutual
def Target.rename (f : Renaming) : Target → Target
  | .var name read r w => .var (f.var name) read r w
  | .many ts => .many (Target.renameAll f ts)
def Target.renameAll (f : Renaming) : List Target → List Target
  | [] => []
  | t :: ts => t.rename f :: Target.renameAll f ts
end

def Line.rename (f : Renaming) : Line → Line
  | .verbat s => .verbat s
  | .normal ps => .normal (Expr.renameAll f ps)
  | .markup ps => .markup (Expr.renameAll f ps)

def TextItem.rename (f : Renaming) : TextItem → TextItem
  | .line l => .line (l.rename f)
  | .margin s => .margin s
  | .indent c => .indent c
  | .dedent c => .dedent c

/-- Names of attributes stay. -/
def TagExp.rename (f : Renaming) : TagExp → TagExp
  | .tag name slot us ns => .tag (f.tag name) slot (Expr.renameAll f us) (ns.map (fun n => (n.1, n.2.rename f)))
  | .null => .null

/-- The name of a formal attribute is how it is called from other places, so it stays. -/
def AttrDef.rename (f : Renaming) (a : AttrDef) : AttrDef := { a with default := Expr.renameOpt f a.default }

/-- `import $x` becomes `import $x as y`, likewise for `context`. -/
def renameAs (f : Renaming) : Str → Option Str → Option Str
  | [], ren => ren.map f.sym
  | c :: n, ren => if c = '$' then some (f.var (ren.getD n)) else if c = '%' then some (f.tag (ren.getD n)) else ren

def ImportItem.rename (f : Renaming) : ImportItem P → ImportItem P
  | .wild slots => .wild slots
  | .name sym ren slot => .name sym (renameAs f sym ren) slot
  | .cntx sym ren slot => .cntx sym (renameAs f sym ren) slot

mutual
/-- The statement with new names. -/
def Stmt.rename (f : Renaming) : Stmt P → Stmt P
  | .static s => .static s
  | .indent c => .indent c
  | .dedent c => .dedent c
  | .line l => .line (l.rename f)
  | .xblock m mo b => .xblock m mo (b.rename f)
  | .text lead items => .text lead (items.map (TextItem.rename f))
  | .comment => .comment
  | .embed e => .embed (e.rename f)
  | .struct tags b => .struct (tags.map (TagExp.rename f)) (b.rename f)
  | .defn id name slot ba as b => .defn id (f.tag name) slot (ba.map (AttrDef.rename f)) (as.map (AttrDef.rename f)) (b.rename f)
  | .imports c path items => .imports c path (items.map (ImportItem.rename f))
  | .tryBlock bs => .tryBlock (Stmt.renameAll f bs)
  | .ifBlock cs els => .ifBlock (Stmt.renameClauses f cs) (Stmt.renameOpt f els)
  | .elseClause b => .elseClause (Stmt.renameOpt f b)
  | .whileBlock t b els => .whileBlock (t.rename f) (Stmt.renameOpt f b) (Stmt.renameOpt f els)
  | .forBlock t e rest => .forBlock (t.rename f) (e.rename f) (Stmt.renameAll f rest)
  | .exprBlock e => .exprBlock (e.rename f)
  | .assign t op e => .assign (t.rename f) op (e.rename f)
  | .body ss => .body (Stmt.renameAll f ss)
  | .pass => .pass
def Stmt.renameAll (f : Renaming) : List (Stmt P) → List (Stmt P)
  | [] => []
  | s :: ss => s.rename f :: Stmt.renameAll f ss
def Stmt.renameOpt (f : Renaming) : Option (Stmt P) → Option (Stmt P)
  | none => none
  | some s => some (s.rename f)
def Stmt.renameClause (f : Renaming) : Expr × Option (Stmt P) → Expr × Option (Stmt P)
  | (t, b) => (t.rename f, Stmt.renameOpt f b)
def Stmt.renameClauses (f : Renaming) : List (Expr × Option (Stmt P)) → List (Expr × Option (Stmt P))
  | [] => []
  | c :: cs => Stmt.renameClause f c :: Stmt.renameClauses f cs
end

mutual
/-- Formal attributes, and what `import *` imports, keep their names. -/
def Stmt.renamable (src : Source P I) (f : Renaming) : Stmt P → Prop
  | .xblock _ _ b => b.renamable src f
  | .struct _ b => b.renamable src f
  | .defn _ _ _ ba as b => (∀ a ∈ ba.toList ++ as, f.var a.name = a.name) ∧ b.renamable src f
  | .imports _ path items => ∀ sl, .wild sl ∈ items → ∀ y ∈ wildNames src path, f.sym y = y
  | .tryBlock bs => Stmt.renamableAll src f bs
  | .ifBlock cs els => Stmt.renamableClauses src f cs ∧ Stmt.renamableOpt src f els
  | .elseClause b => Stmt.renamableOpt src f b
  | .whileBlock _ b els => Stmt.renamableOpt src f b ∧ Stmt.renamableOpt src f els
  | .forBlock _ _ rest => Stmt.renamableAll src f rest
  | .body ss => Stmt.renamableAll src f ss
  | _ => True
def Stmt.renamableAll (src : Source P I) (f : Renaming) : List (Stmt P) → Prop
  | [] => True
  | s :: ss => s.renamable src f ∧ Stmt.renamableAll src f ss
def Stmt.renamableOpt (src : Source P I) (f : Renaming) : Option (Stmt P) → Prop
  | none => True
  | some s => s.renamable src f
def Stmt.renamableClause (src : Source P I) (f : Renaming) : Expr × Option (Stmt P) → Prop
  | (_, b) => Stmt.renamableOpt src f b
def Stmt.renamableClauses (src : Source P I) (f : Renaming) : List (Expr × Option (Stmt P)) → Prop
  | [] => True
  | c :: cs => Stmt.renamableClause src f c ∧ Stmt.renamableClauses src f cs
end

/-- A dictionary of symbols with new names. -/
def renameDict {V : Type} (f : Renaming) (d : List (Str × V)) : List (Str × V) := d.map (fun x => (f.sym x.1, x.2))

/-- A document with new names; the symbols it exports have new names. -/
def Document.rename (f : Renaming) (doc : Document P) : Document P :=
  ⟨doc.slotsIn, Stmt.renameAll f doc.children, renameDict f doc.slotsOut⟩

def DefInfo.rename (f : Renaming) (d : DefInfo P) : DefInfo P :=
  ⟨d.bodyAttr.map (AttrDef.rename f), d.attrs.map (AttrDef.rename f), d.body.rename f⟩

/-- Errors of the analysis mention the new names, except those about symbols that cannot be imported. -/
def AErr.rename (f : Renaming) : AErr I → AErr I
  | .undefinedVar s => .undefinedVar (f.sym s)
  | .undefinedTag s => .undefinedTag (f.sym s)
  | e => e

end
end Verif
