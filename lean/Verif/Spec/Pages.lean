import Verif.Spec.Scripts
import Verif.Spec.Lines
import Verif.Model.Html

/-! Templates of pages: how they are written as scripts, and what markup they stand for. A page is a list of
blocks; a block is a text, or elements around a text, around nothing, or around a nested page, or a comment.
Texts and values of attributes contain expressions, whose values are strings given by `env`. -/

namespace Verif.Spec
open Verif.Py

/-- A piece of a text: literal characters, or an expression given by its source. -/
inductive Piece where
  | lit (s : Str)
  | expr (x : Str)

/-- How a character is written in quotes (`q`) or in a line. The grammar has no place for a quote inside of
quotes, even after a backslash. -/
def writeChar (q : Bool) (c : Char) : Str :=
  if c = '$' ∨ c = '{' ∨ c = '}' then [c, c]
  else if q = true ∧ c = '\\' then ['\\', '\\']
  else if q = true ∧ c = '"' then ['\\', 'x', '2', '2']
  else if q = true ∧ c = '\n' then ['\\', 'n']
  else [c]

/-- How a piece is written. -/
def Piece.source (q : Bool) : Piece → Str
  | .lit s => s.flatMap (writeChar q)
  | .expr x => '{' :: (x ++ ['}'])

/-- How a text is written. -/
def piecesSource (q : Bool) (ps : List Piece) : Str := ps.flatMap (Piece.source q)

/-- The characters of a text. -/
def piecesValue (env : Str → Str) : List Piece → Str
  | [] => []
  | .lit s :: ps => s ++ piecesValue env ps
  | .expr x :: ps => env x ++ piecesValue env ps

/-- A text: verbatim, normal (special characters are escaped), or markup. -/
inductive Content where
  | verbat (s : Str)
  | normal (ps : List Piece)
  | markup (ps : List Piece)

/-- How it is written. -/
def Content.source : Content → Str
  | .verbat s => '!' :: ' ' :: s
  | .normal ps => '|' :: ' ' :: piecesSource false ps
  | .markup ps => '/' :: ' ' :: piecesSource false ps

/-- Its markup. -/
def Content.html (env : Str → Str) : Content → Str
  | .verbat s => s
  | .normal ps => htmlEscape (piecesValue env ps)
  | .markup ps => piecesValue env ps

/-- An element: the name and attributes. -/
structure Elem where
  name : Str
  attrs : List (Str × List Piece)

/-- How an attribute is written. -/
def attrSource (a : Str × List Piece) : Str := a.1 ++ '=' :: '"' :: (piecesSource true a.2 ++ ['"'])

/-- How an element is written. -/
def Elem.source (e : Elem) : Str := e.name ++ e.attrs.flatMap (fun a => ' ' :: attrSource a)

/-- Its start tag, without brackets. -/
def Elem.head (env : Str → Str) (e : Elem) : Str :=
  e.name ++ e.attrs.flatMap (fun a => ' ' :: (a.1 ++ '=' :: quoteattr (piecesValue env a.2)))

/-- How nested elements are written. -/
def elemsSource : List Elem → Str
  | [] => []
  | [e] => e.source
  | e :: es => e.source ++ (s!!" : " ++ elemsSource es)

/-- Start tags. -/
def startTags (env : Str → Str) (es : List Elem) : Str := es.flatMap (fun e => '<' :: (e.head env ++ ['>']))

/-- End tags. -/
def endTags (es : List Elem) : Str := es.reverse.flatMap (fun e => '<' :: '/' :: (e.name ++ ['>']))

/-- Elements without contents; the last one may be void. -/
def emptyTags (void : Str → Bool) (env : Str → Str) : List Elem → Str
  | [] => []
  | [e] => if void e.name then '<' :: (e.head env ++ s!!" />") else '<' :: (e.head env ++ ('>' :: '<' :: '/' :: (e.name ++ ['>'])))
  | e :: es => '<' :: (e.head env ++ ('>' :: (emptyTags void env es ++ ('<' :: '/' :: (e.name ++ ['>'])))))

mutual
/-- A page: blocks, each after a number of empty lines. -/
inductive Page where
  | nil
  | cons (m : Nat) (b : PageBlock) (rest : Page)
/-- A block. -/
inductive PageBlock where
  | text (c : Content)
  | inline (es : List Elem) (c : Content)
  | empty (es : List Elem)
  | nested (es : List Elem) (inc : Str) (body : Page)
  | comment (s : Str)
end

/-- The line that begins a block. -/
def PageBlock.source : PageBlock → Str
  | .text c => c.source
  | .inline es c => elemsSource es ++ ' ' :: c.source
  | .empty es => elemsSource es
  | .nested es _ _ => elemsSource es
  | .comment s => '-' :: '-' :: s

mutual
/-- The script of a page. -/
def Page.items : Page → List Item
  | .nil => []
  | .cons m b rest => .line m b.source :: (b.under ++ rest.items)
/-- The lines under the first one. -/
def PageBlock.under : PageBlock → List Item
  | .nested _ inc body => [.group inc body.items]
  | _ => []
end

/-- Elements around lines of markup. -/
def aroundLines (void : Str → Bool) (env : Str → Str) (es : List Elem) (inc : Str) : List Str → List Str
  | [] => [emptyTags void env es]
  | ls => startTags env es :: (ls.map (shift inc) ++ [endTags es])

mutual
/-- The lines of markup of a page. -/
def Page.lines (void : Str → Bool) (env : Str → Str) : Page → List Str
  | .nil => []
  | .cons m b rest => List.replicate m [] ++ (b.lines void env ++ rest.lines void env)
/-- The lines of markup of a block. -/
def PageBlock.lines (void : Str → Bool) (env : Str → Str) : PageBlock → List Str
  | .text c => [c.html env]
  | .inline es c => [startTags env es ++ (c.html env ++ endTags es)]
  | .empty es => [emptyTags void env es]
  | .nested es inc body => aroundLines void env es inc (body.lines void env)
  | .comment _ => []
end

section
variable (M : Marks) (void : Str → Option Bool) (env : Str → Str) (known : Str → Prop)

/-- The pieces can be written: literals are free of marks and (in lines) of newlines, expressions are
known and do not begin with a brace; a character `?` or `!` after an expression would be a qualifier. -/
def PiecesOk (q : Bool) : List Piece → Prop
  | [] => True
  | .lit s :: ps => (∀ c ∈ s, isMark M c = false ∧ (q = false → c ≠ '\n')) ∧ PiecesOk q ps
  | .expr x :: ps => known x ∧ x.head? ≠ some '{' ∧
      (∀ c, (piecesSource q ps).head? = some c → c ≠ '?' ∧ c ≠ '!') ∧ PiecesOk q ps

/-- A text can be written in a line, and its value is one line. -/
def ContentOk : Content → Prop
  | .verbat s => s ≠ [] ∧ (∀ c ∈ s, TextChar M c)
  | .normal ps => PiecesOk M known false ps ∧ piecesSource false ps ≠ [] ∧ '\n' ∉ piecesValue env ps
  | .markup ps => PiecesOk M known false ps ∧ piecesSource false ps ≠ [] ∧ '\n' ∉ piecesValue env ps

/-- A text can be written in a line, whatever its value is. -/
def ContentWritable : Content → Prop
  | .verbat s => s ≠ [] ∧ (∀ c ∈ s, TextChar M c)
  | .normal ps => PiecesOk M known false ps ∧ piecesSource false ps ≠ []
  | .markup ps => PiecesOk M known false ps ∧ piecesSource false ps ≠ []

/-- An element can be written. -/
structure ElemOk (e : Elem) : Prop where
  name : TagName e.name
  names : ∀ a ∈ e.attrs, XmlName a.1
  distinct : (e.attrs.map Prod.fst).Nodup
  values : ∀ a ∈ e.attrs, PiecesOk M known true a.2

/-- Nested elements can be written; `last`: whether the last one may be void. -/
def ElemsOk (last : Bool) : List Elem → Prop
  | [] => False
  | [e] => ElemOk M known e ∧ ∃ v, void e.name = some v ∧ (last = false → v = false)
  | e :: es => ElemOk M known e ∧ void e.name = some false ∧ ElemsOk last es

mutual
/-- A page can be written. -/
def Page.Ok : Page → Prop
  | .nil => True
  | .cons _ b rest => b.Ok ∧ rest.Ok
/-- A block can be written. -/
def PageBlock.Ok : PageBlock → Prop
  | .text c => ContentOk M env known c
  | .inline es c => ElemsOk M void known false es ∧ ContentOk M env known c
  | .empty es => ElemsOk M void known true es
  | .nested es inc body => ElemsOk M void known false es ∧ Blanks inc ∧ inc ≠ [] ∧ body.items ≠ [] ∧ body.Ok
  | .comment s => ∀ c ∈ s, TextChar M c
end

end
end Verif.Spec
