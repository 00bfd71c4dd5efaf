import Verif.Spec.Pages
import Verif.Spec.Html

/-! What a reader of a page should see: the elements of the template, in its order, with the values of
expressions as attributes and as visible characters. -/

namespace Verif.Spec
open Verif.Py

/-- The visible characters. -/
def visible (s : Str) : List Event := (s.filter (fun c => !isSpace c)).map Event.chr

/-- A text is seen as its characters; only in texts that are not escaped entities are decoded. -/
def Content.events (env : Str → Str) : Content → List Event
  | .verbat s => visible (decodeText s)
  | .normal ps => visible (piecesValue env ps)
  | .markup ps => visible (decodeText (piecesValue env ps))

/-- Attributes of an element. -/
def Elem.seen (env : Str → Str) (e : Elem) : AttrList := e.attrs.map (fun a => (a.1, some (piecesValue env a.2)))

/-- Starts of elements. -/
def startEvents (env : Str → Str) (es : List Elem) : List Event := es.map (fun e => .start e.name (e.seen env))

/-- Ends of elements. -/
def endEvents (es : List Elem) : List Event := es.reverse.map (fun e => .close e.name)

/-- Elements without contents. -/
def emptyEvents (void : Str → Bool) (env : Str → Str) : List Elem → List Event
  | [] => []
  | [e] => if void e.name then [.void e.name (e.seen env)] else [.start e.name (e.seen env), .close e.name]
  | e :: es => .start e.name (e.seen env) :: (emptyEvents void env es ++ [.close e.name])

mutual
/-- The events of a page. -/
def Page.events (void : Str → Bool) (env : Str → Str) : Page → List Event
  | .nil => []
  | .cons _ b rest => b.events void env ++ rest.events void env
/-- The events of a block. -/
def PageBlock.events (void : Str → Bool) (env : Str → Str) : PageBlock → List Event
  | .text c => c.events env
  | .inline es c => startEvents env es ++ (c.events env ++ endEvents es)
  | .empty es => emptyEvents void env es
  | .nested es _ body => startEvents env es ++ (body.events void env ++ endEvents es)
  | .comment _ => []
end

/-- Texts that are not escaped contain no active markup; nothing is demanded of the other ones. -/
def Content.Safe (env : Str → Str) : Content → Prop
  | .verbat s => SafeText s
  | .normal _ => True
  | .markup ps => SafeText (piecesValue env ps)

mutual
/-- The same for all texts of a page. -/
def Page.Safe (env : Str → Str) : Page → Prop
  | .nil => True
  | .cons _ b rest => b.Safe env ∧ rest.Safe env
/-- The same for all texts of a block. -/
def PageBlock.Safe (env : Str → Str) : PageBlock → Prop
  | .text c => c.Safe env
  | .inline _ c => c.Safe env
  | .empty _ => True
  | .nested _ _ body => body.Safe env
  | .comment _ => True
end

end Verif.Spec
