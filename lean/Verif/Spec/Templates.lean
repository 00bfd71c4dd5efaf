import Verif.Spec.Pages

/-! Templates with conditions, loops, variables and uses of components: how they are written as scripts, and what markup they
stand for when their variables have given values. The values are data as in JSON: atoms that can be printed,
`None`, lists, and records with named fields. Components (hypertags) are defined in `Spec/Components`. -/

namespace Verif.Spec
open Verif.Py

/-- Data: an atom with its truth value and its text, `None`, a list, a record with its truth value. -/
inductive Data where
  | atom (t : Bool) (s : Str)
  | null
  | list (ds : List Data)
  | record (t : Bool) (fs : List (Str × Data))

/-- The truth value. -/
def Data.truth : Data → Bool
  | .atom t _ => t
  | .null => false
  | .list ds => !ds.isEmpty
  | .record t _ => t

/-- The text, of atoms only. -/
def Data.text : Data → Option Str
  | .atom _ s => some s
  | _ => none

/-- A field of a record. -/
def Data.field (n : Str) : Data → Option Data
  | .record _ fs => fs.lookup n
  | _ => none

/-- A string. -/
def Data.string (s : Str) : Data := .atom (!s.isEmpty) s

/-- Values of variables. -/
abbrev Vars := Str → Option Data

/-- Another value for one variable. -/
def Vars.set (ρ : Vars) (v : Str) (d : Data) : Vars := fun x => if x = v then some d else ρ x

/-- Fields of fields. -/
def Data.fields : List Str → Data → Option Data
  | [], d => some d
  | n :: ns, d => (d.field n).bind (Data.fields ns)

/-- The value of an expression `v.a.b`. -/
def Vars.value (ρ : Vars) (x : Str) : Option Data :=
  match split '.' x with
  | [] => none
  | v :: ns => (ρ v).bind (Data.fields ns)

/-- Its text. -/
def Vars.text (ρ : Vars) (x : Str) : Option Str := (ρ.value x).bind Data.text

/-- The same as a total function. -/
def Vars.env (ρ : Vars) (x : Str) : Str := (ρ.text x).getD []

/-- All expressions have texts. -/
def Vars.prints (ρ : Vars) (ps : List Piece) : Bool :=
  ps.all (fun | .lit _ => true | .expr x => (ρ.text x).isSome)

/-- All expressions of a content have texts, and its markup is one line. -/
def Vars.shows (ρ : Vars) (c : Content) : Bool :=
  (match c with | .verbat _ => true | .normal ps => ρ.prints ps | .markup ps => ρ.prints ps) && !(c.html ρ.env).contains '\n'

/-- All expressions in elements have texts. -/
def Vars.opens (ρ : Vars) (es : List Elem) : Bool := es.all (fun e => e.attrs.all (fun a => ρ.prints a.2))

/-- A condition. -/
inductive Test where
  | holds (x : Str)
  | fails (x : Str)

/-- How it is written. -/
def Test.source : Test → Str
  | .holds x => x
  | .fails x => s!!"not " ++ x

/-- Its value. -/
def Test.value (ρ : Vars) : Test → Option Bool
  | .holds x => (ρ.value x).map Data.truth
  | .fails x => (ρ.value x).map (fun d => !d.truth)

/-- The right side of an assignment. -/
inductive Given where
  | path (x : Str)
  | string (ps : List Piece)

/-- How it is written. -/
def Given.source : Given → Str
  | .path x => x
  | .string ps => '"' :: (piecesSource true ps ++ ['"'])

/-- Its value. -/
def Given.value (ρ : Vars) : Given → Option Data
  | .path x => ρ.value x
  | .string ps => if ρ.prints ps then some (.string (piecesValue ρ.env ps)) else none

mutual
/-- A template: blocks, each after a number of empty lines. -/
inductive Tmpl where
  | nil
  | cons (m : Nat) (b : TmplBlock) (rest : Tmpl)
/-- A block. -/
inductive TmplBlock where
  | text (c : Content)
  | inline (es : List Elem) (c : Content)
  | empty (es : List Elem)
  | nested (es : List Elem) (inc : Str) (body : Tmpl)
  | comment (s : Str)
  | cond (x : Test) (inc : Str) (body : Tmpl) (more : TmplElse)
  | loop (v x inc : Str) (body : Tmpl)
  | set (v : Str) (g : Given)
  | call (n : Str) (args : List (Str × Given))
  | callInline (n : Str) (args : List (Str × Given)) (c : Content)
  | callNested (n : Str) (args : List (Str × Given)) (inc : Str) (body : Tmpl)
  | embed (b : Str)
/-- What follows the first clause of a condition. -/
inductive TmplElse where
  | none
  | els (m : Nat) (inc : Str) (body : Tmpl)
  | elif (m : Nat) (x : Test) (inc : Str) (body : Tmpl) (more : TmplElse)
end

/-- The use of a component, with values of its parameters. -/
def callSource (n : Str) (args : List (Str × Given)) : Str := n ++ args.flatMap (fun a => ' ' :: (a.1 ++ '=' :: a.2.source))

/-- The line that begins a block. -/
def TmplBlock.source : TmplBlock → Str
  | .text c => c.source
  | .inline es c => elemsSource es ++ ' ' :: c.source
  | .empty es => elemsSource es
  | .nested es _ _ => elemsSource es
  | .comment s => '-' :: '-' :: s
  | .cond x _ _ _ => s!!"if " ++ x.source
  | .loop v x _ _ => s!!"for " ++ (v ++ (s!!" in " ++ x))
  | .set v g => s!!"$ " ++ (v ++ (s!!" = " ++ g.source))
  | .call n args => callSource n args
  | .callInline n args c => callSource n args ++ ' ' :: c.source
  | .callNested n args _ _ => callSource n args
  | .embed b => s!!"@ " ++ b

mutual
/-- The script of a template. -/
def Tmpl.items : Tmpl → List Item
  | .nil => []
  | .cons m b rest => .line m b.source :: (b.under ++ rest.items)
/-- The lines under the first one. -/
def TmplBlock.under : TmplBlock → List Item
  | .nested _ inc body => [.group inc body.items]
  | .cond _ inc body more => .group inc body.items :: more.items
  | .loop _ _ inc body => [.group inc body.items]
  | .callNested _ _ inc body => [.group inc body.items]
  | _ => []
/-- Further clauses. -/
def TmplElse.items : TmplElse → List Item
  | .none => []
  | .els m inc body => [.line m (s!!"else"), .group inc body.items]
  | .elif m x inc body more => .line m (s!!"elif " ++ x.source) :: .group inc body.items :: more.items
end

/-- A part of the output: empty lines (with one more line if `extra`), or the lines of a block. -/
inductive Chunk where
  | gap (extra : Bool) (m : Nat)
  | block (ls : List Str)

/-- Its lines. -/
def Chunk.lines : Chunk → List Str
  | .gap extra m => List.replicate (if extra then m + 1 else m) []
  | .block ls => ls

/-- Lines of several parts. -/
def chunkLines (cs : List Chunk) : List Str := cs.flatMap Chunk.lines

/-- Empty lines before a block. -/
def gap : Nat → List Chunk
  | 0 => []
  | m + 1 => [.gap false (m + 1)]

/-- A control block begins with a new line: if there are empty lines at its beginning then there is one more. -/
def opening : List Chunk → List Chunk
  | .gap _ m :: cs => .gap true m :: cs
  | cs => cs

/-- The parts in their order; nothing if one is missing. -/
def collect : List (Option (List Chunk)) → Option (List Chunk)
  | [] => some []
  | none :: _ => none
  | some c :: cs => (collect cs).map (c ++ ·)

/-- One part for each item of a list; nothing if the value is no list. -/
def each (f : Data → Option (List Chunk)) : Option Data → Option (List Chunk)
  | some (.list ds) => collect (ds.map f)
  | _ => none

/-- The variables after a block: an assignment adds one. -/
def TmplBlock.after (ρ : Vars) : TmplBlock → Vars
  | .set v g => match g.value ρ with | some d => ρ.set v d | none => ρ
  | _ => ρ

/-- The values of arguments; nothing if one is missing. -/
def argValues (ρ : Vars) : List (Str × Given) → Option (List (Str × Data))
  | [] => some []
  | (x, g) :: args => (g.value ρ).bind (fun d => (argValues ρ args).map ((x, d) :: ·))

/-- Components by name: the markup for values of parameters and for the markup of the body. -/
abbrev Lib := Str → List (Str × Data) → List Chunk → Option (List Chunk)

/-- No components. -/
def noLib : Lib := fun _ _ _ => none

mutual
/-- The markup of a template in which `β` is the body of the component; nothing if a value is missing, cannot be printed or is not of the right kind. -/
def Tmpl.out (void : Str → Bool) (lib : Lib) : Tmpl → Vars → List Chunk → Option (List Chunk)
  | .nil, _, _ => some []
  | .cons m b rest, ρ, β =>
    (b.out void lib ρ β).bind (fun a => (rest.out void lib (b.after ρ) β).map (fun r => gap m ++ (a ++ r)))
/-- The markup of a block. -/
def TmplBlock.out (void : Str → Bool) (lib : Lib) : TmplBlock → Vars → List Chunk → Option (List Chunk)
  | .text c, ρ, _ => if ρ.shows c then some [.block [c.html ρ.env]] else none
  | .inline es c, ρ, _ =>
    if ρ.opens es ∧ ρ.shows c then some [.block [startTags ρ.env es ++ (c.html ρ.env ++ endTags es)]] else none
  | .empty es, ρ, _ => if ρ.opens es then some [.block [emptyTags void ρ.env es]] else none
  | .nested es inc body, ρ, β =>
    if ρ.opens es then (body.out void lib ρ β).map (fun cs => [.block (aroundLines void ρ.env es inc (chunkLines cs))]) else none
  | .comment _, _, _ => some []
  | .cond x _ body more, ρ, β =>
    (x.value ρ).bind (fun t => (if t then body.out void lib ρ β else more.out void lib ρ β).map opening)
  | .loop v x _ body, ρ, β =>
    (each (fun d => body.out void lib (ρ.set v d) β) (ρ.value x)).map opening
  | .set _ g, ρ, _ => if (g.value ρ).isSome then some [] else none
  | .call n args, ρ, _ => (argValues ρ args).bind (fun vs => lib n vs [])
  | .callInline n args c, ρ, _ => if ρ.shows c then (argValues ρ args).bind (fun vs => lib n vs [.block [c.html ρ.env]]) else none
  | .callNested n args _ body, ρ, β => (body.out void lib ρ β).bind (fun cs => (argValues ρ args).bind (fun vs => lib n vs (opening cs)))
  | .embed _, _, β => some β
/-- The markup of further clauses. -/
def TmplElse.out (void : Str → Bool) (lib : Lib) : TmplElse → Vars → List Chunk → Option (List Chunk)
  | .none, _, _ => some []
  | .els _ _ body, ρ, β => body.out void lib ρ β
  | .elif _ x _ body more, ρ, β => (x.value ρ).bind (fun t => if t then body.out void lib ρ β else more.out void lib ρ β)
end

/-- The lines of markup of a template without components. -/
def Tmpl.lines (void : Str → Bool) (ρ : Vars) (T : Tmpl) : Option (List Str) := (T.out void noLib ρ []).map chunkLines

/-- What has to be known for a use of a component: whether it has a body, and its parameters, each with whether it may be omitted. -/
structure Sig where
  body : Bool
  params : List (Str × Bool)

/-- Components by name. -/
abbrev Sigs := Str → Option Sig

/-- No components. -/
def noSigs : Sigs := fun _ => none

section
variable (M : Marks) (void : Str → Option Bool)

/-- The expression is a variable in scope, followed by names of fields. -/
def PathOk (Γ : Str → Prop) (x : Str) : Prop :=
  ∃ (v : Str) (ns : List Str), x = v ++ ns.flatMap ('.' :: ·) ∧ VarName v ∧ Γ v ∧ ∀ n ∈ ns, Name n

/-- A condition can be written. -/
def TestOk (Γ : Str → Prop) : Test → Prop
  | .holds x => PathOk Γ x
  | .fails x => PathOk Γ x

/-- The right side of an assignment can be written. -/
def GivenOk (Γ : Str → Prop) : Given → Prop
  | .path x => PathOk Γ x
  | .string ps => PiecesOk M (PathOk Γ) true ps

/-- Arguments can be written, for the given parameters. -/
structure ArgsOk (Γ : Str → Prop) (params : List (Str × Bool)) (args : List (Str × Given)) : Prop where
  distinct : (args.map Prod.fst).Nodup
  known : ∀ a ∈ args, a.1 ∈ params.map Prod.fst
  given : ∀ q ∈ params, q.2 = false → q.1 ∈ args.map Prod.fst
  values : ∀ a ∈ args, GivenOk M Γ a.2

/-- Variables in scope after a block. -/
def TmplBlock.scope (Γ : Str → Prop) : TmplBlock → Str → Prop
  | .set v _ => fun x => x = v ∨ Γ x
  | _ => Γ

variable (sigs : Sigs) (bv : Option Str)

mutual
/-- A template can be written, with variables `Γ` in scope: it uses only these, and assigns only other ones. It embeds the body `bv` of the
component in which it is not more than once, and only if `β`. -/
def Tmpl.Ok : Tmpl → (Str → Prop) → Bool → Prop
  | .nil, _, _ => True
  | .cons _ b rest, Γ, β => (b.Ok Γ β ∧ rest.Ok (b.scope Γ) false) ∨ (b.Ok Γ false ∧ rest.Ok (b.scope Γ) β)
/-- A block can be written. -/
def TmplBlock.Ok : TmplBlock → (Str → Prop) → Bool → Prop
  | .text c, Γ, _ => ContentWritable M (PathOk Γ) c
  | .inline es c, Γ, _ => ElemsOk M void (PathOk Γ) false es ∧ ContentWritable M (PathOk Γ) c
  | .empty es, Γ, _ => ElemsOk M void (PathOk Γ) true es
  | .nested es inc body, Γ, β =>
    ElemsOk M void (PathOk Γ) false es ∧ Blanks inc ∧ inc ≠ [] ∧ body.items ≠ [] ∧ body.Ok Γ β
  | .comment s, _, _ => ∀ c ∈ s, TextChar M c
  | .cond x inc body more, Γ, β => TestOk Γ x ∧ Blanks inc ∧ inc ≠ [] ∧ body.items ≠ [] ∧ body.Ok Γ β ∧ more.Ok Γ β
  | .loop v x inc body, Γ, _ =>
    PathOk Γ x ∧ VarName v ∧ ¬ Γ v ∧ bv ≠ some v ∧ Blanks inc ∧ inc ≠ [] ∧ body.items ≠ [] ∧ body.Ok (fun y => y = v ∨ Γ y) false
  | .set v g, Γ, _ => GivenOk M Γ g ∧ VarName v ∧ ¬ Γ v ∧ bv ≠ some v
  | .call n args, Γ, _ => ∃ sig, sigs n = some sig ∧ ArgsOk M Γ sig.params args
  | .callInline n args c, Γ, _ => (∃ sig, sigs n = some sig ∧ sig.body = true ∧ ArgsOk M Γ sig.params args) ∧ ContentWritable M (PathOk Γ) c
  | .callNested n args inc body, Γ, β => (∃ sig, sigs n = some sig ∧ sig.body = true ∧ ArgsOk M Γ sig.params args) ∧
    Blanks inc ∧ inc ≠ [] ∧ body.items ≠ [] ∧ body.Ok Γ β
  | .embed b, _, β => β = true ∧ bv = some b ∧ VarName b
/-- Further clauses can be written. -/
def TmplElse.Ok : TmplElse → (Str → Prop) → Bool → Prop
  | .none, _, _ => True
  | .els _ inc body, Γ, β => Blanks inc ∧ inc ≠ [] ∧ body.items ≠ [] ∧ body.Ok Γ β
  | .elif _ x inc body more, Γ, β => TestOk Γ x ∧ Blanks inc ∧ inc ≠ [] ∧ body.items ≠ [] ∧ body.Ok Γ β ∧ more.Ok Γ β
end

/-- A template without components can be written. -/
abbrev Tmpl.Plain (T : Tmpl) (Γ : Str → Prop) : Prop := T.Ok M void noSigs none Γ false

end
end Verif.Spec
