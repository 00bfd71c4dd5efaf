import Verif.Model.Script

/-! Definitions of hypertags at other positions. -/

namespace Verif.Spec
open Verif.Py

section
variable {P : Type}

mutual
/-- The statement, with the identities of definitions (that is, the positions in the text) moved by `k`. -/
def moved (k : Nat) : Stmt P → Stmt P
  | .xblock m mo b => .xblock m mo (moved k b)
  | .struct tags b => .struct tags (moved k b)
  | .defn id name slot ba as b => .defn (k + id) name slot ba as (moved k b)
  | .tryBlock bs => .tryBlock (movedAll k bs)
  | .ifBlock cs els => .ifBlock (movedClauses k cs) (movedOpt k els)
  | .elseClause b => .elseClause (movedOpt k b)
  | .whileBlock t b els => .whileBlock t (movedOpt k b) (movedOpt k els)
  | .forBlock t e rest => .forBlock t e (movedAll k rest)
  | .body ss => .body (movedAll k ss)
  | s => s
def movedAll (k : Nat) : List (Stmt P) → List (Stmt P)
  | [] => []
  | s :: ss => moved k s :: movedAll k ss
def movedOpt (k : Nat) : Option (Stmt P) → Option (Stmt P)
  | none => none
  | some s => some (moved k s)
def movedClause (k : Nat) : Expr × Option (Stmt P) → Expr × Option (Stmt P)
  | (t, b) => (t, movedOpt k b)
def movedClauses (k : Nat) : List (Expr × Option (Stmt P)) → List (Expr × Option (Stmt P))
  | [] => []
  | c :: cs => movedClause k c :: movedClauses k cs
end

end
end Verif.Spec
