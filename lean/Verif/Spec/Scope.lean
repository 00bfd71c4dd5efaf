import Verif.Model.Analyse
import Verif.Spec.Blocks

/-
Scope of names, stated on the script as it was parsed: which symbols a statement uses, which it adds to
the scope of the statements after it, and whether all uses are in scope. `$name` is a variable, `%name`
a tag.
-/

namespace Verif
open Py

section
variable {P I : Type}

/-! ### Symbols used -/

mutual
/-- All symbols used in the expression satisfy `p`. -/
def Expr.uses (p : Str → Prop) : Expr → Prop
  | .root _ e => e.uses p
  | .tagUse sym _ => p sym
  | .varUse name _ => p ('$' :: name)
  | .factor atom tail _ => atom.uses p ∧ Tail.usesAll p tail
  | .chain _ head _ es => head.uses p ∧ Expr.usesAll p es
  | .concat es => Expr.usesAll p es
  | .bits _ head es => head.uses p ∧ Expr.usesAll p es
  | .pipeline head fs => head.uses p ∧ Expr.usesAll p fs
  | .notTest _ e => e.uses p
  | .andTest head es => head.uses p ∧ Expr.usesAll p es
  | .orTest head es => head.uses p ∧ Expr.usesAll p es
  | .ifElse x t y => x.uses p ∧ t.uses p ∧ Expr.usesOpt p y
  | .list es => Expr.usesAll p es
  | .tuple es => Expr.usesAll p es
  | .set es => Expr.usesAll p es
  | .dict es => Expr.usesAll p es
  | .format es => Expr.usesAll p es
  | .static _ => True
  | .strLit _ => True
  | .number _ => True
  | .boolean _ => True
  | .noneLit => True
  | .sliceNone => True
def Expr.usesAll (p : Str → Prop) : List Expr → Prop
  | [] => True
  | e :: es => e.uses p ∧ Expr.usesAll p es
def Expr.usesOpt (p : Str → Prop) : Option Expr → Prop
  | none => True
  | some e => e.uses p
def Tail.usesAll (p : Str → Prop) : List Tail → Prop
  | [] => True
  | t :: ts => t.uses p ∧ Tail.usesAll p ts
def Tail.uses (p : Str → Prop) : Tail → Prop
  | .call _ args => Expr.usesAll p args
  | .partialCall _ args => Expr.usesAll p args
  | .index es => Expr.usesAll p es
  | .member _ => True
end

def Line.uses (p : Str → Prop) : Line → Prop
  | .verbat _ => True
  | .normal ps => Expr.usesAll p ps
  | .markup ps => Expr.usesAll p ps

def TextItem.uses (p : Str → Prop) : TextItem → Prop
  | .line l => l.uses p
  | _ => True

/-- A tag with its attributes. -/
def TagExp.uses (p : Str → Prop) : TagExp → Prop
  | .tag name _ us ns => Expr.usesAll p us ∧ (∀ n ∈ ns, n.2.uses p) ∧ p ('%' :: name)
  | .null => True

/-! ### Symbols defined -/

mutual
def Target.defines : Target → List Str
  | .var name _ _ _ => ['$' :: name]
  | .many ts => Target.definesAll ts
def Target.definesAll : List Target → List Str
  | [] => []
  | t :: ts => t.defines ++ Target.definesAll ts
end

/-- The public symbols of a module. -/
def wildNames (src : Source P I) (path : Option Str) : List Str :=
  match src.modules path with
  | .ok (symbols, _) => (symbols.map Prod.fst).filter (fun s => s[1]? ≠ some '_')
  | .error _ => []

/-- The symbol of an import with an optional new name, which has the same mark. -/
def asName (sym : Str) : Option Str → Str
  | some n => sym.take 1 ++ n
  | none => sym

def ImportItem.defines (src : Source P I) (path : Option Str) : ImportItem P → List Str
  | .wild _ => wildNames src path
  | .name sym ren _ => [asName sym ren]
  | .cntx sym ren _ => [asName sym ren]

mutual
/-- The symbols that are in scope after the statement in addition to those before. Tagged blocks and
definitions have a namespace of their own; control blocks have not. -/
def Stmt.defines (src : Source P I) : Stmt P → List Str
  | .xblock _ _ b => b.defines src
  | .defn _ name _ _ _ _ => ['%' :: name]
  | .imports _ path items => items.flatMap (fun i => i.defines src path)
  | .tryBlock bs => Stmt.definesAll src bs
  | .ifBlock cs els => Stmt.definesClauses src cs ++ Stmt.definesOpt src els
  | .elseClause b => Stmt.definesOpt src b
  | .whileBlock _ b els => Stmt.definesOpt src b ++ Stmt.definesOpt src els
  | .forBlock t _ rest => t.defines ++ Stmt.definesAll src rest
  | .assign t _ _ => t.defines
  | .body ss => Stmt.definesAll src ss
  | _ => []
def Stmt.definesAll (src : Source P I) : List (Stmt P) → List Str
  | [] => []
  | s :: ss => s.defines src ++ Stmt.definesAll src ss
def Stmt.definesOpt (src : Source P I) : Option (Stmt P) → List Str
  | none => []
  | some s => s.defines src
def Stmt.definesClause (src : Source P I) : Expr × Option (Stmt P) → List Str
  | (_, b) => Stmt.definesOpt src b
def Stmt.definesClauses (src : Source P I) : List (Expr × Option (Stmt P)) → List Str
  | [] => []
  | c :: cs => Stmt.definesClause src c ++ Stmt.definesClauses src cs
end

/-! ### Uses in scope -/

mutual
/-- In-place assignment uses its target. -/
def Target.scoped (S : List Str) : Target → Prop
  | .var name read _ _ => read = true → '$' :: name ∈ S
  | .many ts => Target.scopedAll S ts
def Target.scopedAll (S : List Str) : List Target → Prop
  | [] => True
  | t :: ts => t.scoped S ∧ Target.scopedAll (S ++ t.defines) ts
end

/-- The variables declared by the attributes of a hypertag. -/
def attrNames (ba : Option AttrDef) (as : List AttrDef) : List Str :=
  (ba.toList ++ as).map (fun a => '$' :: a.name)

mutual
/-- Every symbol used in the statement is in `S` or was defined earlier, in the same or an enclosing
namespace. A branch of a control block also sees what the branches before it define. -/
def Stmt.scoped (src : Source P I) (S : List Str) : Stmt P → Prop
  | .static _ => True
  | .indent _ => True
  | .dedent _ => True
  | .line l => l.uses (· ∈ S)
  | .xblock _ _ b => b.scoped src S
  | .text _ items => ∀ i ∈ items, i.uses (· ∈ S)
  | .comment => True
  | .embed e => e.uses (· ∈ S)
  | .struct tags b => (∀ t ∈ tags, t.uses (· ∈ S)) ∧ b.scoped src S
  | .defn _ _ _ ba as b =>
    (∀ a ∈ ba.toList ++ as, Expr.usesOpt (· ∈ S) a.default) ∧ b.scoped src (S ++ attrNames ba as)
  | .imports _ _ _ => True
  | .tryBlock bs => Stmt.scopedAll src S bs
  | .ifBlock cs els =>
    Stmt.scopedClauses src S cs ∧ Stmt.scopedOpt src (S ++ Stmt.definesClauses src cs) els
  | .elseClause b => Stmt.scopedOpt src S b
  | .whileBlock t b els =>
    t.uses (· ∈ S) ∧ Stmt.scopedOpt src S b ∧ Stmt.scopedOpt src (S ++ Stmt.definesOpt src b) els
  | .forBlock t e rest =>
    e.uses (· ∈ S) ∧ t.scoped S ∧ Stmt.scopedAll src (S ++ t.defines) rest
  | .exprBlock e => e.uses (· ∈ S)
  | .assign t _ e => e.uses (· ∈ S) ∧ t.scoped S
  | .body ss => Stmt.scopedAll src S ss
  | .pass => True
def Stmt.scopedAll (src : Source P I) (S : List Str) : List (Stmt P) → Prop
  | [] => True
  | s :: ss => s.scoped src S ∧ Stmt.scopedAll src (S ++ s.defines src) ss
def Stmt.scopedOpt (src : Source P I) (S : List Str) : Option (Stmt P) → Prop
  | none => True
  | some s => s.scoped src S
def Stmt.scopedClause (src : Source P I) (S : List Str) : Expr × Option (Stmt P) → Prop
  | (t, b) => t.uses (· ∈ S) ∧ Stmt.scopedOpt src S b
def Stmt.scopedClauses (src : Source P I) (S : List Str) : List (Expr × Option (Stmt P)) → Prop
  | [] => True
  | c :: cs => Stmt.scopedClause src S c ∧
    Stmt.scopedClauses src (S ++ Stmt.definesClause src c) cs
end

/-! ### Clauses of loops -/

mutual
/-- Every clause of a `for` block after the first one satisfies `K`. -/
def Stmt.tails (K : Stmt P → Prop) : Stmt P → Prop
  | .xblock _ _ b => b.tails K
  | .struct _ b => b.tails K
  | .defn _ _ _ _ _ b => b.tails K
  | .tryBlock bs => Stmt.tailsAll K bs
  | .ifBlock cs els => Stmt.tailsClauses K cs ∧ Stmt.tailsOpt K els
  | .elseClause b => Stmt.tailsOpt K b
  | .whileBlock _ b els => Stmt.tailsOpt K b ∧ Stmt.tailsOpt K els
  | .forBlock _ _ rest => Stmt.tailsFirst K rest
  | .body ss => Stmt.tailsAll K ss
  | _ => True
def Stmt.tailsAll (K : Stmt P → Prop) : List (Stmt P) → Prop
  | [] => True
  | s :: ss => s.tails K ∧ Stmt.tailsAll K ss
def Stmt.tailsOpt (K : Stmt P → Prop) : Option (Stmt P) → Prop
  | none => True
  | some s => s.tails K
def Stmt.tailsClause (K : Stmt P → Prop) : Expr × Option (Stmt P) → Prop
  | (_, b) => Stmt.tailsOpt K b
def Stmt.tailsClauses (K : Stmt P → Prop) : List (Expr × Option (Stmt P)) → Prop
  | [] => True
  | c :: cs => Stmt.tailsClause K c ∧ Stmt.tailsClauses K cs
def Stmt.tailsFirst (K : Stmt P → Prop) : List (Stmt P) → Prop
  | [] => True
  | s :: ss => s.tails K ∧ ∀ t ∈ ss, K t
end

/-- No `for` block in the statement has a second clause, i.e., an `else`. -/
def Stmt.noForElse (s : Stmt P) : Prop := s.tails (fun _ => False)

end

/-! ### Code outside of the model -/

/-- The code does not raise the exception that stands for an unanalysed name, unless a hypertag it called
did. -/
inductive Proc.honest {P X W α : Type} : Proc P X W α → Prop
  | ret (a m) : Proc.honest (.ret a m)
  | raise (e m) : e ≠ .unresolved → Proc.honest (.raise e m)
  | call (c m k) : (∀ r m', r ≠ .error .unresolved → Proc.honest (k r m')) → Proc.honest (.call c m k)

end Verif
