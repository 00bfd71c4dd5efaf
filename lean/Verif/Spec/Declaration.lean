import Verif.Model.Analyse
import Verif.Model.Translate

/-! Specification: statements that only declare symbols. -/

namespace Verif.Spec
open Verif Py

/-- Imports from modules, and definitions of hypertags. -/
inductive Declaration {P : Type} : Stmt P → Prop where
  | imports (path : Option Str) (items : List (ImportItem P)) : Declaration (.imports false path items)
  | hypertag (id : DefId) (name : Str) (slot : Option Slot) (body : Option AttrDef) (attrs : List AttrDef) (b : Stmt P) :
      Declaration (.defn id name slot body attrs b)

/-- Blocks one below the other, with margins above them. -/
def placedBlocks {P : Type} : List Str → List (Option Modifier × Stmt P) → List (Stmt P)
  | m :: ms, d :: ds => .xblock m d.1 d.2 :: placedBlocks ms ds
  | _, _ => []

/-- Documents with the same root, and the same exported symbols and values, in whatever order; or the same exception. -/
inductive SameOutcome {P X : Type} : Res X (Ref × Dict Str (Val P)) → Res X (Ref × Dict Str (Val P)) → Prop where
  | ok (root : Ref) {symbols symbols' : Dict Str (Val P)} (h : ∀ y, Dict.get? symbols y = Dict.get? symbols' y) : SameOutcome (.ok (root, symbols)) (.ok (root, symbols'))
  | raise (e : Exn X) : SameOutcome (.raise e) (.raise e)
  | timeout : SameOutcome .timeout .timeout

end Verif.Spec
