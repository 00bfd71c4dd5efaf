import Verif.Spec.Templates

/-! Templates with modifiers: blocks that are appended to the block before them (`...`), blocks at the left margin (`<`), elements with a text
and a body, the tag `.` that adds no markup, and `pass`. How such templates are written as scripts, and the text they stand for, with its
newlines and indentation (docs/index.md, "Modifiers", "Anatomy of a block"). -/

namespace Verif.Spec
open Verif.Py

/-- A part of the output: newlines, or a text. `line`: it begins with a newline of its own; `flush`: it is not indented. -/
inductive Span where
  | gap (line : Bool) (m : Nat)
  | part (line flush : Bool) (s : Str)

/-- The part begins with a newline. -/
def Span.newLine : Span → Span
  | .gap _ m => .gap true m
  | .part _ f s => .part true f s

/-- The part is placed at the left margin. -/
def Span.atMargin : Span → Span
  | .gap l m => .gap l m
  | .part l _ s => .part l true s

/-- The part is placed at the level of its block. -/
def Span.atLevel : Span → Span
  | .gap l m => .gap l m
  | .part l _ s => .part l false s

/-- The first part begins with a newline. -/
def startLine : List Span → List Span
  | [] => []
  | x :: xs => x.newLine :: xs

/-- The output of a block with a modifier: without one, it begins on a new line; after `...` it continues the line; after `<` it begins on a
new line, at the left margin. -/
def modify : Option Modifier → List Span → List Span
  | none, xs => startLine xs
  | some .append, xs => xs
  | some .dedent, xs => (startLine xs).map Span.atMargin

/-- The lines but the first one are indented, unless they are empty. -/
def indentText (inc t : Str) : Str := join ['\n'] (mapTail (shift inc) (lines t))

/-- A newline, or nothing. -/
def newline? (line : Bool) : Str := if line then ['\n'] else []

/-- The text of a part, in a body that is indented by `inc`. -/
def Span.text (inc : Str) : Span → Str
  | .gap l m => newline? l ++ List.replicate m '\n'
  | .part l f s => if f then newline? l ++ s else indentText inc (newline? l ++ s)

/-- The text of a body. -/
def spansText (inc : Str) (xs : List Span) : Str := xs.flatMap (Span.text inc)

/-- Elements around a text: the end tags are on a new line if the text begins on a new line. No elements (the tag `.`): the text itself. -/
def around (void : Str → Bool) (env : Str → Str) (es : List Elem) (t : Str) : Str :=
  if es = [] then t
  else if t = [] then emptyTags void env es
  else startTags env es ++ (t ++ (newline? (t.head? == some '\n') ++ endTags es))

/-- How elements are written; no elements are written as `.`. -/
def tagsSource (es : List Elem) : Str := if es = [] then ['.'] else elemsSource es

/-- How a modifier is written. -/
def modifierSource : Option Modifier → Str
  | none => []
  | some .append => s!!"... "
  | some .dedent => s!!"< "

mutual
/-- A template: blocks, each after a number of empty lines, with a modifier. -/
inductive Sheet where
  | nil
  | cons (m : Nat) (mo : Option Modifier) (b : SheetBlock) (rest : Sheet)
/-- A block. -/
inductive SheetBlock where
  | text (c : Content)
  | inline (es : List Elem) (c : Content)
  | empty (es : List Elem)
  | nested (es : List Elem) (inc : Str) (body : Sheet)
  | mixed (es : List Elem) (c : Content) (inc : Str) (body : Sheet)
  | comment (s : Str)
  | pass
  | cond (x : Test) (inc : Str) (body : Sheet) (more : SheetElse)
  | loop (v x inc : Str) (body : Sheet)
  | set (v : Str) (g : Given)
/-- What follows the first clause of a condition. -/
inductive SheetElse where
  | none
  | els (m : Nat) (inc : Str) (body : Sheet)
  | elif (m : Nat) (x : Test) (inc : Str) (body : Sheet) (more : SheetElse)
end

/-- The line that begins a block. -/
def SheetBlock.source : SheetBlock → Str
  | .text c => c.source
  | .inline es c => tagsSource es ++ ' ' :: c.source
  | .empty es => tagsSource es
  | .nested es _ _ => tagsSource es
  | .mixed es c _ _ => tagsSource es ++ ':' :: ' ' :: c.source
  | .comment s => '-' :: '-' :: s
  | .pass => s!!"pass"
  | .cond x _ _ _ => s!!"if " ++ x.source
  | .loop v x _ _ => s!!"for " ++ (v ++ (s!!" in " ++ x))
  | .set v g => s!!"$ " ++ (v ++ (s!!" = " ++ g.source))

mutual
/-- The script of a template. -/
def Sheet.items : Sheet → List Item
  | .nil => []
  | .cons m mo b rest => .line m (modifierSource mo ++ b.source) :: (b.under ++ rest.items)
/-- The lines under the first one. -/
def SheetBlock.under : SheetBlock → List Item
  | .nested _ inc body => [.group inc body.items]
  | .mixed _ _ inc body => [.group inc body.items]
  | .cond _ inc body more => .group inc body.items :: more.items
  | .loop _ _ inc body => [.group inc body.items]
  | _ => []
/-- Further clauses. -/
def SheetElse.items : SheetElse → List Item
  | .none => []
  | .els m inc body => [.line m (s!!"else"), .group inc body.items]
  | .elif m x inc body more => .line m (s!!"elif " ++ x.source) :: .group inc body.items :: more.items
end

/-- Empty lines before a block. -/
def blank : Nat → List Span
  | 0 => []
  | m + 1 => [.gap false (m + 1)]

/-- The parts in their order; nothing if one is missing. -/
def collectSpans : List (Option (List Span)) → Option (List Span)
  | [] => some []
  | none :: _ => none
  | some c :: cs => (collectSpans cs).map (c ++ ·)

/-- The parts for each item of a list; nothing if the value is no list. -/
def eachSpan (f : Data → Option (List Span)) : Option Data → Option (List Span)
  | some (.list ds) => collectSpans (ds.map f)
  | _ => none

/-- The variables after a block. -/
def SheetBlock.after (ρ : Vars) : SheetBlock → Vars
  | .set v g => match g.value ρ with | some d => ρ.set v d | none => ρ
  | _ => ρ

mutual
/-- The output of a template; nothing if a value is missing, cannot be printed or is not of the right kind. -/
def Sheet.out (void : Str → Bool) : Sheet → Vars → Option (List Span)
  | .nil, _ => some []
  | .cons m mo b rest, ρ =>
    (b.out void ρ).bind (fun a => (rest.out void (b.after ρ)).map (fun r => blank m ++ (modify mo a ++ r)))
/-- The output of a block. The parts of a control block are placed at its level. -/
def SheetBlock.out (void : Str → Bool) : SheetBlock → Vars → Option (List Span)
  | .text c, ρ => if ρ.shows c then some [.part false false (c.html ρ.env)] else none
  | .inline es c, ρ => if ρ.opens es ∧ ρ.shows c then some [.part false false (around void ρ.env es (c.html ρ.env))] else none
  | .empty es, ρ => if ρ.opens es then some [.part false false (around void ρ.env es [])] else none
  | .nested es inc body, ρ =>
    if ρ.opens es then (body.out void ρ).map (fun xs => [.part false false (around void ρ.env es (spansText inc xs))]) else none
  | .mixed es c inc body, ρ =>
    if ρ.opens es ∧ ρ.shows c then
      (body.out void ρ).map (fun xs => [.part false false (around void ρ.env es (c.html ρ.env ++ spansText inc xs))])
    else none
  | .comment _, _ => some []
  | .pass, _ => some []
  | .cond x _ body more, ρ =>
    (x.value ρ).bind (fun t => (if t then body.out void ρ else more.out void ρ).map (List.map Span.atLevel))
  | .loop v x _ body, ρ => (eachSpan (fun d => body.out void (ρ.set v d)) (ρ.value x)).map (List.map Span.atLevel)
  | .set _ g, ρ => if (g.value ρ).isSome then some [] else none
/-- The output of further clauses. -/
def SheetElse.out (void : Str → Bool) : SheetElse → Vars → Option (List Span)
  | .none, _ => some []
  | .els _ _ body, ρ => body.out void ρ
  | .elif _ x _ body more, ρ => (x.value ρ).bind (fun t => if t then body.out void ρ else more.out void ρ)
end

/-- Without the newline at the beginning. -/
def withoutFirst : Str → Str
  | '\n' :: t => t
  | t => t

/-- The document. -/
def Sheet.text (void : Str → Bool) (ρ : Vars) (T : Sheet) : Option Str := (T.out void ρ).map (fun xs => withoutFirst (spansText [] xs))

section
variable (M : Marks) (void : Str → Option Bool)

/-- Elements can be written, or there are none. -/
def TagsOk (Γ : Str → Prop) (last : Bool) (es : List Elem) : Prop := es = [] ∨ ElemsOk M void (PathOk Γ) last es

/-- Variables in scope after a block. -/
def SheetBlock.scope (Γ : Str → Prop) : SheetBlock → Str → Prop
  | .set v _ => fun x => x = v ∨ Γ x
  | _ => Γ

mutual
/-- A template can be written, with variables `Γ` in scope: it uses only these, and assigns only other ones. -/
def Sheet.Ok : Sheet → (Str → Prop) → Prop
  | .nil, _ => True
  | .cons _ _ b rest, Γ => b.Ok Γ ∧ rest.Ok (b.scope Γ)
/-- A block can be written. -/
def SheetBlock.Ok : SheetBlock → (Str → Prop) → Prop
  | .text c, Γ => ContentWritable M (PathOk Γ) c
  | .inline es c, Γ => TagsOk M void Γ false es ∧ ContentWritable M (PathOk Γ) c
  | .empty es, Γ => TagsOk M void Γ true es
  | .nested es inc body, Γ => TagsOk M void Γ false es ∧ Blanks inc ∧ inc ≠ [] ∧ body.items ≠ [] ∧ body.Ok Γ
  | .mixed es c inc body, Γ =>
    TagsOk M void Γ false es ∧ ContentWritable M (PathOk Γ) c ∧ Blanks inc ∧ inc ≠ [] ∧ body.items ≠ [] ∧ body.Ok Γ
  | .comment s, _ => ∀ c ∈ s, TextChar M c
  | .pass, _ => True
  | .cond x inc body more, Γ => TestOk Γ x ∧ Blanks inc ∧ inc ≠ [] ∧ body.items ≠ [] ∧ body.Ok Γ ∧ more.Ok Γ
  | .loop v x inc body, Γ =>
    PathOk Γ x ∧ VarName v ∧ ¬ Γ v ∧ Blanks inc ∧ inc ≠ [] ∧ body.items ≠ [] ∧ body.Ok (fun y => y = v ∨ Γ y)
  | .set v g, Γ => GivenOk M Γ g ∧ VarName v ∧ ¬ Γ v
/-- Further clauses can be written. -/
def SheetElse.Ok : SheetElse → (Str → Prop) → Prop
  | .none, _ => True
  | .els _ inc body, Γ => Blanks inc ∧ inc ≠ [] ∧ body.items ≠ [] ∧ body.Ok Γ
  | .elif _ x inc body more, Γ => TestOk Γ x ∧ Blanks inc ∧ inc ≠ [] ∧ body.items ≠ [] ∧ body.Ok Γ ∧ more.Ok Γ
end

end
end Verif.Spec
