import Verif.Spec.Templates
import Verif.Spec.PageEvents

/-! What a reader of the document of a template should see: the elements of the template, once for each item of
a list where there is a loop, with the data as attributes and as visible characters. -/

namespace Verif.Spec
open Verif.Py

/-- Events for each item of a list. -/
def eachEvents (f : Data → List Event) : Option Data → List Event
  | some (.list ds) => ds.flatMap f
  | _ => []

/-- Events of a clause, if the condition has the value. -/
def whenEvents (t : Bool) (v : Option Bool) (evs : List Event) : List Event := if v = some t then evs else []

/-- Components by name: the events for values of parameters and for the events of the body. -/
abbrev LibEvents := Str → List (Str × Data) → List Event → List Event

/-- Events of a component, if its arguments have values. -/
def callEvents (f : List (Str × Data) → List Event → List Event) (vs : Option (List (Str × Data))) (body : List Event) : List Event :=
  match vs with | some vs => f vs body | none => []

mutual
/-- The events of a template in which `β` are the events of the body of the component. -/
def Tmpl.events (void : Str → Bool) (lib : LibEvents) : Tmpl → Vars → List Event → List Event
  | .nil, _, _ => []
  | .cons _ b rest, ρ, β => b.events void lib ρ β ++ rest.events void lib (b.after ρ) β
/-- The events of a block. -/
def TmplBlock.events (void : Str → Bool) (lib : LibEvents) : TmplBlock → Vars → List Event → List Event
  | .text c, ρ, _ => c.events ρ.env
  | .inline es c, ρ, _ => startEvents ρ.env es ++ (c.events ρ.env ++ endEvents es)
  | .empty es, ρ, _ => emptyEvents void ρ.env es
  | .nested es _ body, ρ, β => startEvents ρ.env es ++ (body.events void lib ρ β ++ endEvents es)
  | .comment _, _, _ => []
  | .cond x _ body more, ρ, β =>
    whenEvents true (x.value ρ) (body.events void lib ρ β) ++ whenEvents false (x.value ρ) (more.events void lib ρ β)
  | .loop v x _ body, ρ, β => eachEvents (fun d => body.events void lib (ρ.set v d) β) (ρ.value x)
  | .set _ _, _, _ => []
  | .call n args, ρ, _ => callEvents (lib n) (argValues ρ args) []
  | .callInline n args c, ρ, _ => callEvents (lib n) (argValues ρ args) (c.events ρ.env)
  | .callNested n args _ body, ρ, β => callEvents (lib n) (argValues ρ args) (body.events void lib ρ β)
  | .embed _, _, β => β
/-- The events of further clauses. -/
def TmplElse.events (void : Str → Bool) (lib : LibEvents) : TmplElse → Vars → List Event → List Event
  | .none, _, _ => []
  | .els _ _ body, ρ, β => body.events void lib ρ β
  | .elif _ x _ body more, ρ, β =>
    whenEvents true (x.value ρ) (body.events void lib ρ β) ++ whenEvents false (x.value ρ) (more.events void lib ρ β)
end

/-- The events of a template without components. -/
abbrev Tmpl.read (void : Str → Bool) (T : Tmpl) (ρ : Vars) : List Event := T.events void (fun _ _ _ => []) ρ []

/-- Components by name: whether texts that are not escaped contain no active markup, for values of parameters. -/
abbrev LibSafe := Str → List (Str × Data) → Prop

/-- The same for a component with arguments. -/
def callSafe (f : List (Str × Data) → Prop) (vs : Option (List (Str × Data))) : Prop := ∀ v, vs = some v → f v

mutual
/-- Texts that are not escaped contain no active markup, whenever they are output. -/
def Tmpl.Safe (lib : LibSafe) : Tmpl → Vars → Prop
  | .nil, _ => True
  | .cons _ b rest, ρ => b.Safe lib ρ ∧ rest.Safe lib (b.after ρ)
/-- The same for a block. -/
def TmplBlock.Safe (lib : LibSafe) : TmplBlock → Vars → Prop
  | .text c, ρ => c.Safe ρ.env
  | .inline _ c, ρ => c.Safe ρ.env
  | .empty _, _ => True
  | .nested _ _ body, ρ => body.Safe lib ρ
  | .comment _, _ => True
  | .cond x _ body more, ρ => (x.value ρ = some true → body.Safe lib ρ) ∧ (x.value ρ = some false → more.Safe lib ρ)
  | .loop v x _ body, ρ => ∀ ds, ρ.value x = some (.list ds) → ∀ d ∈ ds, body.Safe lib (ρ.set v d)
  | .set _ _, _ => True
  | .call n args, ρ => callSafe (lib n) (argValues ρ args)
  | .callInline n args c, ρ => callSafe (lib n) (argValues ρ args) ∧ c.Safe ρ.env
  | .callNested n args _ body, ρ => callSafe (lib n) (argValues ρ args) ∧ body.Safe lib ρ
  | .embed _, _ => True
/-- The same for further clauses. -/
def TmplElse.Safe (lib : LibSafe) : TmplElse → Vars → Prop
  | .none, _ => True
  | .els _ _ body, ρ => body.Safe lib ρ
  | .elif _ x _ body more, ρ => (x.value ρ = some true → body.Safe lib ρ) ∧ (x.value ρ = some false → more.Safe lib ρ)
end

/-- The same for a template without components. -/
abbrev Tmpl.Harmless (T : Tmpl) (ρ : Vars) : Prop := T.Safe (fun _ _ => True) ρ

end Verif.Spec
