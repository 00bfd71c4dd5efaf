import Verif.Model.Translate

/-! Scripts without comments. -/

namespace Verif
open Py

section
variable {P : Type}

/-- The blank lines above a block that is a comment. -/
def Stmt.remark : Stmt P → Option Str
  | .xblock m _ .comment => some m
  | _ => none

/-- Blank lines. -/
def blankLines (m : Str) : List (Stmt P) := if m = [] then [] else [.static m]

mutual
/-- The statement without comments. -/
def Stmt.plain : Stmt P → Stmt P
  | .xblock m mo b => .xblock m mo b.plain
  | .struct tags b => .struct tags b.plain
  | .defn id name slot ba as b => .defn id name slot ba as b.plain
  | .tryBlock bs => .tryBlock (Stmt.plainEach bs)
  | .ifBlock cs els => .ifBlock (Stmt.plainClauses cs) (Stmt.plainOpt els)
  | .elseClause b => .elseClause (Stmt.plainOpt b)
  | .whileBlock t b els => .whileBlock t (Stmt.plainOpt b) (Stmt.plainOpt els)
  | .forBlock t e rest => .forBlock t e (Stmt.plainEach rest)
  | .body ss => .body (Stmt.plainAll ss)
  | .static s => .static s
  | .indent c => .indent c
  | .dedent c => .dedent c
  | .line l => .line l
  | .text lead items => .text lead items
  | .comment => .comment
  | .embed e => .embed e
  | .imports c path items => .imports c path items
  | .exprBlock e => .exprBlock e
  | .assign t op e => .assign t op e
  | .pass => .pass
/-- Blocks without comments: of a comment only the blank lines above it are left. -/
def Stmt.plainAll : List (Stmt P) → List (Stmt P)
  | [] => []
  | s :: ss =>
    match s.remark with
    | some m => blankLines m ++ Stmt.plainAll ss
    | none => s.plain :: Stmt.plainAll ss
/-- Branches without comments. -/
def Stmt.plainEach : List (Stmt P) → List (Stmt P)
  | [] => []
  | s :: ss => s.plain :: Stmt.plainEach ss
def Stmt.plainOpt : Option (Stmt P) → Option (Stmt P)
  | none => none
  | some s => some s.plain
def Stmt.plainClause : Expr × Option (Stmt P) → Expr × Option (Stmt P)
  | (t, b) => (t, Stmt.plainOpt b)
def Stmt.plainClauses : List (Expr × Option (Stmt P)) → List (Expr × Option (Stmt P))
  | [] => []
  | c :: cs => Stmt.plainClause c :: Stmt.plainClauses cs
end

mutual
/-- No comment in any place where blocks are written. -/
def Stmt.uncommented : Stmt P → Prop
  | .xblock _ _ b => b.uncommented
  | .struct _ b => b.uncommented
  | .defn _ _ _ _ _ b => b.uncommented
  | .tryBlock bs => Stmt.uncommentedEach bs
  | .ifBlock cs els => Stmt.uncommentedClauses cs ∧ Stmt.uncommentedOpt els
  | .elseClause b => Stmt.uncommentedOpt b
  | .whileBlock _ b els => Stmt.uncommentedOpt b ∧ Stmt.uncommentedOpt els
  | .forBlock _ _ rest => Stmt.uncommentedEach rest
  | .body ss => Stmt.uncommentedAll ss
  | _ => True
def Stmt.uncommentedAll : List (Stmt P) → Prop
  | [] => True
  | s :: ss => s.remark = none ∧ s.uncommented ∧ Stmt.uncommentedAll ss
def Stmt.uncommentedEach : List (Stmt P) → Prop
  | [] => True
  | s :: ss => s.uncommented ∧ Stmt.uncommentedEach ss
def Stmt.uncommentedOpt : Option (Stmt P) → Prop
  | none => True
  | some s => s.uncommented
def Stmt.uncommentedClauses : List (Expr × Option (Stmt P)) → Prop
  | [] => True
  | (_, b) :: cs => Stmt.uncommentedOpt b ∧ Stmt.uncommentedClauses cs
end

/-- A document without comments. -/
def Document.plain (doc : Document P) : Document P := { doc with children := Stmt.plainAll doc.children }

def DefInfo.plain (d : DefInfo P) : DefInfo P := { d with body := d.body.plain }

end
end Verif
