import Verif.Spec.Scope

/-! The symbols that occur in a script as it was parsed: those it uses, assigns, defines, declares or imports. -/

namespace Verif
open Py

section
variable {P I : Type}

mutual
/-- All variables of the target satisfy `p`. -/
def Target.onlyNames (p : Str → Prop) : Target → Prop
  | .var name _ _ _ => p ('$' :: name)
  | .many ts => Target.onlyNamesAll p ts
def Target.onlyNamesAll (p : Str → Prop) : List Target → Prop
  | [] => True
  | t :: ts => t.onlyNames p ∧ Target.onlyNamesAll p ts
end

/-- The symbols that an import gives to the script; those it takes from the context. -/
def ImportItem.onlyNames (src : Source P I) (path : Option Str) (p : Str → Prop) : ImportItem P → Prop
  | .wild _ => ∀ y ∈ wildNames src path, p y
  | .name sym ren _ => p (asName sym ren)
  | .cntx sym ren _ => p sym ∧ p (asName sym ren)

/-- A parameter of a hypertag, with its default value. -/
def AttrDef.onlyNames (p : Str → Prop) (a : AttrDef) : Prop := p ('$' :: a.name) ∧ Expr.usesOpt p a.default

mutual
/-- All symbols that occur in the statement satisfy `p`. -/
def Stmt.onlyNames (src : Source P I) (p : Str → Prop) : Stmt P → Prop
  | .static _ => True
  | .indent _ => True
  | .dedent _ => True
  | .line l => l.uses p
  | .xblock _ _ b => b.onlyNames src p
  | .text _ items => ∀ i ∈ items, i.uses p
  | .comment => True
  | .embed e => e.uses p
  | .struct tags b => (∀ t ∈ tags, t.uses p) ∧ b.onlyNames src p
  | .defn _ name _ ba as b => p ('%' :: name) ∧ (∀ a ∈ ba.toList ++ as, a.onlyNames p) ∧ b.onlyNames src p
  | .imports _ path items => ∀ i ∈ items, i.onlyNames src path p
  | .tryBlock bs => Stmt.onlyNamesAll src p bs
  | .ifBlock cs els => Stmt.onlyNamesClauses src p cs ∧ Stmt.onlyNamesOpt src p els
  | .elseClause b => Stmt.onlyNamesOpt src p b
  | .whileBlock t b els => t.uses p ∧ Stmt.onlyNamesOpt src p b ∧ Stmt.onlyNamesOpt src p els
  | .forBlock t e rest => e.uses p ∧ t.onlyNames p ∧ Stmt.onlyNamesAll src p rest
  | .exprBlock e => e.uses p
  | .assign t _ e => e.uses p ∧ t.onlyNames p
  | .body ss => Stmt.onlyNamesAll src p ss
  | .pass => True
def Stmt.onlyNamesAll (src : Source P I) (p : Str → Prop) : List (Stmt P) → Prop
  | [] => True
  | s :: ss => s.onlyNames src p ∧ Stmt.onlyNamesAll src p ss
def Stmt.onlyNamesOpt (src : Source P I) (p : Str → Prop) : Option (Stmt P) → Prop
  | none => True
  | some s => s.onlyNames src p
def Stmt.onlyNamesClause (src : Source P I) (p : Str → Prop) : Expr × Option (Stmt P) → Prop
  | (t, b) => t.uses p ∧ Stmt.onlyNamesOpt src p b
def Stmt.onlyNamesClauses (src : Source P I) (p : Str → Prop) : List (Expr × Option (Stmt P)) → Prop
  | [] => True
  | c :: cs => Stmt.onlyNamesClause src p c ∧ Stmt.onlyNamesClauses src p cs
end

/-- A part of a script that was not analysed, as the parser created it: no symbol has a slot. -/
def Stmt.unslotted (s : Stmt P) : Prop := s.reads (· = none) ∧ ∀ d ∈ s.defs, d.2.reads (· = none)

end
end Verif
