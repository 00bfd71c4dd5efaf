import Verif.Model.Analyse

/-! Context blocks and import blocks in a script, and where they are. -/

namespace Verif
open Py

section
variable {P : Type}

mutual
/-- Every import or context block in the statement satisfies `K`. -/
def Stmt.imps (K : Bool → List (ImportItem P) → Prop) : Stmt P → Prop
  | .xblock _ _ b => b.imps K
  | .struct _ b => b.imps K
  | .defn _ _ _ _ _ b => b.imps K
  | .imports cx _ items => K cx items
  | .tryBlock bs => Stmt.impsAll K bs
  | .ifBlock cs els => Stmt.impsClauses K cs ∧ Stmt.impsOpt K els
  | .elseClause b => Stmt.impsOpt K b
  | .whileBlock _ b els => Stmt.impsOpt K b ∧ Stmt.impsOpt K els
  | .forBlock _ _ rest => Stmt.impsAll K rest
  | .body ss => Stmt.impsAll K ss
  | _ => True
def Stmt.impsAll (K : Bool → List (ImportItem P) → Prop) : List (Stmt P) → Prop
  | [] => True
  | s :: ss => s.imps K ∧ Stmt.impsAll K ss
def Stmt.impsOpt (K : Bool → List (ImportItem P) → Prop) : Option (Stmt P) → Prop
  | none => True
  | some s => s.imps K
def Stmt.impsClause (K : Bool → List (ImportItem P) → Prop) : Expr × Option (Stmt P) → Prop
  | (_, b) => Stmt.impsOpt K b
def Stmt.impsClauses (K : Bool → List (ImportItem P) → Prop) :
    List (Expr × Option (Stmt P)) → Prop
  | [] => True
  | c :: cs => Stmt.impsClause K c ∧ Stmt.impsClauses K cs
end

/-- There is no context block in the statement. -/
def Stmt.contextFree (s : Stmt P) : Prop := s.imps (fun cx _ => cx = false)

/-- Every symbol that the statement takes from the context satisfies `Q`. -/
def Stmt.declared (Q : Str → Prop) (s : Stmt P) : Prop :=
  s.imps (fun _ items => ∀ sym ren sl, .cntx sym ren sl ∈ items → Q sym)

/-- A comment or a context block. -/
def Stmt.inProlog (s : Stmt P) : Prop :=
  (∃ m mo, s = .xblock m mo .comment) ∨ (∃ m mo path items, s = .xblock m mo (.imports true path items))

/-- Children of a document as created by the parser: blocks, and markers of indentation and margins. -/
def Stmt.topLevel : Stmt P → Prop
  | .xblock _ _ _ => True
  | .indent _ => True
  | .dedent _ => True
  | .static _ => True
  | _ => False

end
end Verif
