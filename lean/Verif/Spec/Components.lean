import Verif.Spec.TemplateEvents

/-! Scripts that define components (hypertags) and use them: how they are written, and what markup they stand for. -/

namespace Verif.Spec
open Verif.Py

/-- A component: its name, the name of the body that is given to it if it takes one, its parameters (with default values or not), and the
template under the definition. -/
structure Component where
  name : Str
  body : Option Str
  params : List (Str × Option Given)
  inc : Str
  tmpl : Tmpl

/-- How a parameter is written. -/
def paramSource : Str × Option Given → Str
  | (x, none) => ' ' :: x
  | (x, some g) => ' ' :: (x ++ '=' :: g.source)

/-- How the body is written. -/
def bodySource : Option Str → Str
  | none => []
  | some b => ' ' :: '@' :: b

/-- The first line of a definition. -/
def Component.source (d : Component) : Str :=
  '%' :: ' ' :: (d.name ++ (bodySource d.body ++ d.params.flatMap paramSource))

/-- What has to be known for using it. -/
def Component.sig (d : Component) : Sig := ⟨d.body.isSome, d.params.map (fun p => (p.1, p.2.isSome))⟩

/-- The value of a parameter: the argument if it is given, else the default value. -/
def paramValue (ρ : Vars) (args : List (Str × Data)) (p : Str × Option Given) : Option Data :=
  match args.lookup p.1 with
  | some d => some d
  | none => p.2.bind (Given.value ρ)

/-- The variables in a component: its parameters, and the variables of the script that are not hidden by them. -/
def Component.vars (d : Component) (ρ : Vars) (args : List (Str × Data)) : Vars := fun y =>
  match d.params.find? (fun p => p.1 = y) with
  | some p => paramValue ρ args p
  | none => ρ y

/-- The lines of a component: it begins a new line, and has one line at least. -/
def componentLines (cs : List Chunk) : List Str :=
  match chunkLines (opening cs) with
  | [] => [[]]
  | ls => ls

/-- The markup of a component with arguments and a body. -/
def Component.out (void : Str → Bool) (lib : Lib) (ρ : Vars) (d : Component) (args : List (Str × Data)) (β : List Chunk) : Option (List Chunk) :=
  if d.params.all (fun p => (paramValue ρ args p).isSome) then
    (d.tmpl.out void lib (d.vars ρ args) β).map (fun cs => [.block (componentLines cs)])
  else none

/-- A script: definitions, each after a number of empty lines, and a template. -/
structure Program where
  defs : List (Nat × Component)
  main : Tmpl

/-- The lines of a definition. -/
def defItems (d : Nat × Component) : List Item := [.line d.1 d.2.source, .group d.2.inc d.2.tmpl.items]

/-- The lines of the script. -/
def Program.items (p : Program) : List Item := p.defs.flatMap defItems ++ p.main.items

/-- One more component. -/
def Lib.add (void : Str → Bool) (ρ : Vars) (lib : Lib) (d : Component) : Lib := fun n => if n = d.name then d.out void lib ρ else lib n

/-- The components of a script; each may use those before it. -/
def defsLib (void : Str → Bool) (ρ : Vars) (defs : List (Nat × Component)) : Lib := defs.foldl (fun lib d => lib.add void ρ d.2) noLib

/-- The markup of a script. Definitions have no markup, but the empty lines before them are output. -/
def Program.out (void : Str → Bool) (ρ : Vars) (p : Program) : Option (List Chunk) :=
  (p.main.out void (defsLib void ρ p.defs) ρ []).map (p.defs.flatMap (fun d => gap d.1) ++ ·)

/-- The lines of markup of a script. -/
def Program.lines (void : Str → Bool) (ρ : Vars) (p : Program) : Option (List Str) := (p.out void ρ).map chunkLines

/-- One more component. -/
def Sigs.add (sigs : Sigs) (d : Component) : Sigs := fun n => if n = d.name then some d.sig else sigs n

/-- The components of a script. -/
def defsSigs (defs : List (Nat × Component)) : Sigs := defs.foldl (fun sigs d => sigs.add d.2) noSigs

section
variable (M : Marks) (void : Str → Option Bool)

/-- The variables that may be used in a component. -/
def Component.scope (d : Component) (Γ : Str → Prop) : Str → Prop := fun y => (y ∈ d.params.map Prod.fst ∨ Γ y) ∧ d.body ≠ some y

/-- A component can be written, after others: its name is new, the names of its body and of its parameters are different, default values
and the template can be written. -/
structure ComponentOk (sigs : Sigs) (Γ : Str → Prop) (d : Component) : Prop where
  name : TagName d.name
  new : void d.name = none ∧ sigs d.name = none
  distinct : (d.body.toList ++ d.params.map Prod.fst).Nodup
  body : ∀ b, d.body = some b → VarName b
  params : ∀ p ∈ d.params, VarName p.1 ∧ XmlName p.1
  defaults : ∀ p ∈ d.params, ∀ g, p.2 = some g → GivenOk M Γ g
  inc : Blanks d.inc ∧ d.inc ≠ []
  items : d.tmpl.items ≠ []
  tmpl : d.tmpl.Ok M void sigs d.body (d.scope Γ) d.body.isSome

/-- Definitions can be written, after others. -/
def DefsOk (Γ : Str → Prop) : Sigs → List (Nat × Component) → Prop
  | _, [] => True
  | sigs, d :: ds => ComponentOk M void sigs Γ d.2 ∧ DefsOk Γ (sigs.add d.2) ds

/-- A script can be written, with the variables `Γ`. -/
structure Program.Ok (Γ : Str → Prop) (p : Program) : Prop where
  defs : DefsOk M void Γ noSigs p.defs
  main : p.main.Ok M void (defsSigs p.defs) none Γ false

end

/-! ### What a reader sees -/

/-- The events of a component. -/
def Component.events (void : Str → Bool) (lib : LibEvents) (ρ : Vars) (d : Component) (args : List (Str × Data)) (β : List Event) : List Event :=
  d.tmpl.events void lib (d.vars ρ args) β

/-- The events of the components of a script. -/
def defsEvents (void : Str → Bool) (ρ : Vars) (defs : List (Nat × Component)) : LibEvents :=
  defs.foldl (fun lib d n => if n = d.2.name then d.2.events void lib ρ else lib n) (fun _ _ _ => [])

/-- The events of a script. -/
def Program.events (void : Str → Bool) (ρ : Vars) (p : Program) : List Event := p.main.events void (defsEvents void ρ p.defs) ρ []

/-- Texts in components that are not escaped contain no active markup. -/
def defsSafe (ρ : Vars) (defs : List (Nat × Component)) : LibSafe :=
  defs.foldl (fun lib d n args => if n = d.2.name then d.2.tmpl.Safe lib (d.2.vars ρ args) else lib n args) (fun _ _ => True)

/-- The same for a script. -/
def Program.Safe (ρ : Vars) (p : Program) : Prop := p.main.Safe (defsSafe ρ p.defs) ρ

end Verif.Spec
