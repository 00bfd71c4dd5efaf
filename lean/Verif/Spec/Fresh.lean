import Verif.Spec.Blocks

/-! Statements that use variables only after they have been assigned. -/

namespace Verif.Spec
open Verif.Py

section
variable {P : Type}

/-- Names that were not resolved, and variables in `K`. -/
def Known (K : Slot → Prop) (o : Option Slot) : Prop := ∀ sl, o = some sl → K sl

/-- More variables. -/
def plus (K : Slot → Prop) (l : List Slot) : Slot → Prop := fun sl => K sl ∨ sl ∈ l

mutual
/-- The variables that are assigned. -/
def targetSlots : Target → List Slot
  | .var _ _ _ slot => slot.toList
  | .many ts => targetSlotsAll ts
def targetSlotsAll : List Target → List Slot
  | [] => []
  | t :: ts => targetSlots t ++ targetSlotsAll ts
end

/-- The symbols that an import assigns. -/
def importSlots : ImportItem P → List Slot
  | .wild slots => (slots.getD []).map Prod.fst
  | .name _ _ slot => (slot.map Prod.fst).toList
  | .cntx _ _ slot => (slot.map Prod.fst).toList

/-- `Sure K s K'`: the statement uses the variables in `K` and those that it has assigned before in any case; after it, those in `K'`
have been assigned in any case. -/
inductive Sure : (Slot → Prop) → Stmt P → (Slot → Prop) → Prop
  /-- all that it uses was assigned before it -/
  | any {K s} : s.reads (Known K) → Sure K s K
  | weaken {K s K' K''} : Sure K s K' → (∀ sl, K'' sl → K' sl) → Sure K s K''
  | assign {K t op e} : e.reads (Known K) → t.reads (Known K) → Sure K (.assign t op e) (plus K (targetSlots t))
  | defn {K id n sl ba as b} : Sure K (.defn id n (some sl) ba as b) (plus K [sl])
  | imports {K c path items} : Sure K (.imports c path items) (plus K (items.flatMap importSlots))
  | xblock {K m mo b K'} : Sure K b K' → Sure K (.xblock m mo b) K'
  /-- the body comes before attributes of the tag -/
  | struct {K tags b K'} : Sure K b K' → (∀ t ∈ tags, t.reads (Known K')) → Sure K (.struct tags b) K'
  | nil {K} : Sure K (.body []) K
  | cons {K s ss K' K''} : Sure K s K' → Sure K' (.body ss) K'' → Sure K (.body (s :: ss)) K''
  /-- all branches assign it, and there is a branch in any case -/
  | ifBlock {K K'} {cs : List (Expr × Option (Stmt P))} {els : Option (Stmt P)} : (∀ c ∈ cs, c.1.reads (Known K)) →
      (∀ c ∈ cs, ∀ b, c.2 = some b → Sure K b K') → (∀ b, els = some b → Sure K b K') →
      ((els = none ∨ ∃ c ∈ cs, c.2 = none) → ∀ sl, K' sl → K sl) → Sure K (.ifBlock cs els) K'
  | elseClause {K K'} {b : Option (Stmt P)} : (∀ s, b = some s → Sure K s K') → Sure K (.elseClause b) K'
  | whileBlock {K t} {b els : Option (Stmt P)} : t.reads (Known K) → (∀ s, b = some s → Sure K s K) → (∀ s, els = some s → Sure K s K) →
      Sure K (.whileBlock t b els) K
  /-- the variables of a loop are assigned in its body -/
  | forBlock {K t e} {rest : List (Stmt P)} : e.reads (Known K) → (∀ s, rest.head? = some s → Sure (plus K (targetSlots t)) s K) →
      (∀ b, rest.getLast? = some (.elseClause b) → Sure K (.elseClause b) K) → Sure K (.forBlock t e rest) K
  /-- an alternative may fail at any place -/
  | tryBlock {K} {bs : List (Stmt P)} : (∀ s ∈ bs, Sure K s K) → Sure K (.tryBlock bs) K

/-- The attributes of a hypertag, with its body. -/
def paramSlots (d : DefInfo P) : List Slot := (d.bodyAttr.toList ++ d.attrs).filterMap AttrDef.slot

/-- A hypertag that assigns none of the variables `K`, and uses only these, its attributes and variables that it has assigned before. -/
structure Tidy (K : Slot → Prop) (d : DefInfo P) : Prop where
  distinct : (d.attrs.map AttrDef.name).Nodup
  defaults : ∀ a ∈ d.attrs, Expr.readsOpt (Known K) a.default
  uses : Sure (plus K (paramSlots d)) d.body (fun _ => False)
  assigns : d.writes (fun o => ∀ sl, o = some sl → ¬ K sl)

end
end Verif.Spec
