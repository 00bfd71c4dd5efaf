import Verif.Model.TagCall

/-! Nested calls of tags, and the nodes they stand for. -/

namespace Verif.Spec
open Verif.Py

/-- A call of a tag whose body is the concatenation of texts and other calls: `ul(li('a') + ' ' + li('b'), id = 'x')`. -/
inductive Call where
  | text (s : Str)
  | tag (t : TagObj) (attrs : List AttrVal) (kwattrs : List (Str × AttrVal)) (body : List Call)

mutual
/-- The names of keyword attributes are not those of the parameters of `__call__`. -/
def Call.Ok : Call → Prop
  | .text _ => True
  | .tag _ _ kw body => (∀ p ∈ kw, p.1 ≠ s!!"self" ∧ p.1 ≠ s!!"body_string") ∧ Call.AllOk body
def Call.AllOk : List Call → Prop
  | [] => True
  | c :: cs => c.Ok ∧ Call.AllOk cs
end

mutual
/-- No user-defined tags. -/
def Call.Std : Call → Prop
  | .text _ => True
  | .tag t _ _ body => (∀ n i, t ≠ .ext n i) ∧ Call.AllStd body
def Call.AllStd : List Call → Prop
  | [] => True
  | c :: cs => c.Std ∧ Call.AllStd cs
end

mutual
/-- The nodes: one for each call and each text. -/
def Call.node : Call → Node
  | .text s => .mk (.text s) none none none [] false none
  | .tag t attrs kw body => .mk .node (some t) (some attrs) (some kw) (Call.nodes body) false none
def Call.nodes : List Call → List Node
  | [] => []
  | c :: cs => c.node :: Call.nodes cs
end

section
variable (ext : Nat → Except RenderErr Str → List AttrVal → List (Str × AttrVal) → Except RenderErr Str)

mutual
/-- What the call returns: the body is computed first, and given as the first argument. -/
def Call.value : Call → Except RenderErr Str
  | .text s => .ok s
  | .tag t attrs kw body =>
    match Call.values body with
    | .error e => .error e
    | .ok s => tagCall ext t (.val (.obj s) :: attrs.map CallArg.val) (kw.map (fun p => (p.1, .val p.2)))
/-- The concatenation. -/
def Call.values : List Call → Except RenderErr Str
  | [] => .ok []
  | c :: cs =>
    match Call.value c with
    | .error e => .error e
    | .ok s =>
      match Call.values cs with
      | .error e => .error e
      | .ok r => .ok (s ++ r)
end

end
end Verif.Spec
