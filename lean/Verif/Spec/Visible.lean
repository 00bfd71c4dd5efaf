import Verif.Spec.Scope

/-
Names that a statement gives a value in its own namespace, i.e., outside tagged blocks and definitions
inside it.
-/

namespace Verif
open Py

section
variable {P I : Type}

mutual
/-- The variables that occurrences of the symbol `y` in an assignment denote. -/
def Target.slotsOf (y : Str) : Target → List (Option Slot)
  | .var name _ _ w => if '$' :: name = y then [w] else []
  | .many ts => Target.slotsOfAll y ts
def Target.slotsOfAll (y : Str) : List Target → List (Option Slot)
  | [] => []
  | t :: ts => t.slotsOf y ++ Target.slotsOfAll y ts
end

mutual
/-- The variables that the symbol `y` denotes where the statement assigns to it, in its own namespace. -/
def Stmt.slotsOf (y : Str) : Stmt P → List (Option Slot)
  | .xblock _ _ b => b.slotsOf y
  | .tryBlock bs => Stmt.slotsOfAll y bs
  | .ifBlock cs els => Stmt.slotsOfClauses y cs ++ Stmt.slotsOfOpt y els
  | .elseClause b => Stmt.slotsOfOpt y b
  | .whileBlock _ b els => Stmt.slotsOfOpt y b ++ Stmt.slotsOfOpt y els
  | .forBlock t _ rest => t.slotsOf y ++ Stmt.slotsOfAll y rest
  | .assign t _ _ => t.slotsOf y
  | .body ss => Stmt.slotsOfAll y ss
  | _ => []
def Stmt.slotsOfAll (y : Str) : List (Stmt P) → List (Option Slot)
  | [] => []
  | s :: ss => s.slotsOf y ++ Stmt.slotsOfAll y ss
def Stmt.slotsOfOpt (y : Str) : Option (Stmt P) → List (Option Slot)
  | none => []
  | some s => s.slotsOf y
def Stmt.slotsOfClause (y : Str) : Expr × Option (Stmt P) → List (Option Slot)
  | (_, b) => Stmt.slotsOfOpt y b
def Stmt.slotsOfClauses (y : Str) : List (Expr × Option (Stmt P)) → List (Option Slot)
  | [] => []
  | c :: cs => Stmt.slotsOfClause y c ++ Stmt.slotsOfClauses y cs
end

mutual
/-- The symbols that the statement imports or defines as tags, in its own namespace. -/
def Stmt.introduces (src : Source P I) : Stmt P → List Str
  | .xblock _ _ b => b.introduces src
  | .defn _ name _ _ _ _ => ['%' :: name]
  | .imports _ path items => items.flatMap (fun i => i.defines src path)
  | .tryBlock bs => Stmt.introducesAll src bs
  | .ifBlock cs els => Stmt.introducesClauses src cs ++ Stmt.introducesOpt src els
  | .elseClause b => Stmt.introducesOpt src b
  | .whileBlock _ b els => Stmt.introducesOpt src b ++ Stmt.introducesOpt src els
  | .forBlock _ _ rest => Stmt.introducesAll src rest
  | .body ss => Stmt.introducesAll src ss
  | _ => []
def Stmt.introducesAll (src : Source P I) : List (Stmt P) → List Str
  | [] => []
  | s :: ss => s.introduces src ++ Stmt.introducesAll src ss
def Stmt.introducesOpt (src : Source P I) : Option (Stmt P) → List Str
  | none => []
  | some s => s.introduces src
def Stmt.introducesClause (src : Source P I) : Expr × Option (Stmt P) → List Str
  | (_, b) => Stmt.introducesOpt src b
def Stmt.introducesClauses (src : Source P I) : List (Expr × Option (Stmt P)) → List Str
  | [] => []
  | c :: cs => Stmt.introducesClause src c ++ Stmt.introducesClauses src cs
end

/-- A control block. -/
def Stmt.isControl : Stmt P → Bool
  | .tryBlock _ => true
  | .ifBlock _ _ => true
  | .whileBlock _ _ _ => true
  | .forBlock _ _ _ => true
  | _ => false

end
end Verif
