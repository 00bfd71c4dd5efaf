import Verif.Model.Script
import Verif.Model.Grammar
import Verif.Spec.Preprocess

/-! Well-made scripts: what the grammar guarantees about the statements and expressions of a script as created by the
parser. Which statements may be where, how indentation is nested, what names and texts look like. -/

namespace Verif

/-- The place of a statement in a script:
* `piece`: a part of a body - a margin, an indentation, a headline
* `block`: a block together with its margin
* `text`: a text block or an embedding; `inner`: any other block, without its margin
* `body`: the indented body of a block; `els`: an `else` clause -/
inductive Role where
  | piece
  | block
  | text
  | inner
  | body
  | els
  deriving DecidableEq, Repr

variable {P : Type}

def Stmt.role : Stmt P → Role
  | .static _ => .piece
  | .indent _ => .piece
  | .dedent _ => .piece
  | .line _ => .piece
  | .xblock _ _ _ => .block
  | .text _ _ => .text
  | .embed _ => .text
  | .elseClause _ => .els
  | .body _ => .body
  | _ => .inner

/-- Kinds of lines. -/
inductive LineKind where
  | verbat
  | normal
  | markup
  deriving DecidableEq, Repr

def Line.kind : Line → LineKind
  | .verbat _ => .verbat
  | .normal _ => .normal
  | .markup _ => .markup

namespace Spec
open Verif.Py

/-- Letters, digits and underscores, not beginning with a digit. -/
def Ident (n : Str) : Prop := ∃ c s, n = c :: s ∧ nameStart c = true ∧ ∀ d ∈ s, nameChar d = true

/-- A name of an attribute. -/
def KeyName (U : Uni) (n : Str) : Prop := n ≠ [] ∧ ∀ c ∈ n, xmlMid U c = true

/-- A symbol: a name with a mark. -/
def MarkedName (s : Str) : Prop := ∃ m n, s = m :: n ∧ (m = '%' ∨ m = '$') ∧ Ident n

/-- A part of one line of the script, without characters that encode indentation. -/
def OneLine (M : Marks) (s : Str) : Prop := ∀ c ∈ s, c ≠ '\n' ∧ isMark M c = false

/-- Newlines only. -/
def Newlines (s : Str) : Prop := ∀ c ∈ s, c = '\n'

/-- Proper nesting of indentation: each character of indentation that is opened is closed, in the reverse order.
`Q` describes what is between. -/
inductive WellNested {α : Type} (opening closing : Char → α) (Q : α → Prop) : List α → Prop
  | nil : WellNested opening closing Q []
  | one {a : α} {as : List α} : Q a → WellNested opening closing Q as → WellNested opening closing Q (a :: as)
  | sub {c : Char} {as bs : List α} : c = ' ' ∨ c = '\t' → WellNested opening closing Q as → WellNested opening closing Q bs →
      WellNested opening closing Q (opening c :: (as ++ closing c :: bs))

end Spec
open Spec

mutual
/-- Expressions: names have no slots yet; operators and operands, keywords and arguments, keys and values match. -/
def Expr.Made : Expr → Prop
  | .root _ e => e.Made
  | .tagUse symbol slot => slot = none ∧ ∃ n, symbol = '%' :: n ∧ Ident n
  | .varUse name slot => slot = none ∧ Ident name
  | .factor atom tail _ => atom.Made ∧ Tail.MadeAll tail
  | .chain _ head ops es => head.Made ∧ Expr.MadeAll es ∧ ops.length = es.length
  | .concat es => Expr.MadeAll es
  | .bits _ head es => head.Made ∧ Expr.MadeAll es
  | .pipeline head fs => head.Made ∧ Expr.MadeAll fs
  | .notTest _ e => e.Made
  | .andTest head es => head.Made ∧ Expr.MadeAll es
  | .orTest head es => head.Made ∧ Expr.MadeAll es
  | .ifElse x t y => x.Made ∧ t.Made ∧ Expr.MadeOpt y
  | .list es => Expr.MadeAll es
  | .tuple es => Expr.MadeAll es
  | .set es => Expr.MadeAll es
  | .dict es => Expr.MadeAll es ∧ es.length % 2 = 0
  | .format es => Expr.MadeAll es
  | .static _ => True
  | .strLit _ => True
  | .number _ => True
  | .boolean _ => True
  | .noneLit => True
  | .sliceNone => True
def Expr.MadeAll : List Expr → Prop
  | [] => True
  | e :: es => e.Made ∧ Expr.MadeAll es
def Expr.MadeOpt : Option Expr → Prop
  | none => True
  | some e => e.Made
def Tail.MadeAll : List Tail → Prop
  | [] => True
  | t :: ts => t.Made ∧ Tail.MadeAll ts
def Tail.Made : Tail → Prop
  | .call names args => Expr.MadeAll args ∧ names.length = args.length ∧ ∀ n, some n ∈ names → Ident n
  | .partialCall names args => Expr.MadeAll args ∧ names.length = args.length ∧ ∀ n, some n ∈ names → Ident n
  | .index es => Expr.MadeAll es ∧ 1 ≤ es.length ∧ es.length ≤ 3
  | .member name => Ident name
end

mutual
/-- Targets of assignments. -/
def Target.Made : Target → Prop
  | .var name _ slotRead slotWrite => Ident name ∧ slotRead = none ∧ slotWrite = none
  | .many ts => ts ≠ [] ∧ Target.MadeAll ts
def Target.MadeAll : List Target → Prop
  | [] => True
  | t :: ts => t.Made ∧ Target.MadeAll ts
end

section
variable (M : Marks) (U : Uni)

def Line.Made : Line → Prop
  | .verbat s => s ≠ [] ∧ OneLine M s
  | .normal ps => Expr.MadeAll ps ∧ ∀ s, .static s ∈ ps → OneLine M s
  | .markup ps => Expr.MadeAll ps ∧ ∀ s, .static s ∈ ps → OneLine M s

/-- Lines of a text block of the given kind, and margins between them. -/
def TextItem.Made (k : LineKind) : TextItem → Prop
  | .line l => l.Made M ∧ l.kind = k
  | .margin s => s ≠ [] ∧ Newlines s
  | .indent _ => False
  | .dedent _ => False

def TagExp.Made : TagExp → Prop
  | .tag name slot us ns => Ident name ∧ slot = none ∧ Expr.MadeAll us ∧ ∀ n ∈ ns, KeyName U n.1 ∧ n.2.Made
  | .null => False

def AttrDef.Made (a : AttrDef) : Prop := Ident a.name ∧ a.slot = none ∧ Expr.MadeOpt a.default

/-- Items of `import` and of `context`. -/
def ImportItem.Made (context : Bool) : ImportItem P → Prop
  | .wild slots => context = false ∧ slots = none
  | .name sym ren slot => context = false ∧ MarkedName sym ∧ (∀ n ∈ ren, Ident n) ∧ slot = none
  | .cntx sym ren slot => context = true ∧ MarkedName sym ∧ (∀ n ∈ ren, Ident n) ∧ slot = none

/-- The body of a block: a text block, or an indented body. -/
def Stmt.isBody (s : Stmt P) : Prop := s.role = .text ∨ s.role = .body

/-- Blocks, possibly indented. -/
def Stmt.Blocks : List (Stmt P) → Prop := WellNested Stmt.indent Stmt.dedent (fun s => s.role = .block)

mutual
def Stmt.Made : Stmt P → Prop
  | .static s => s ≠ [] ∧ Newlines s
  | .indent c => c = ' ' ∨ c = '\t'
  | .dedent c => c = ' ' ∨ c = '\t'
  | .line l => l.Made M
  | .xblock margin _ b => Newlines margin ∧ (b.role = .text ∨ b.role = .inner) ∧ Stmt.Made b
  | .text lead items => 1 ≤ lead ∧ ∃ k, WellNested TextItem.indent TextItem.dedent (TextItem.Made M k) items
  | .comment => True
  | .embed e => e.Made
  | .struct tags b => (tags = [.null] ∨ tags ≠ [] ∧ ∀ t ∈ tags, t.Made U) ∧ b.isBody ∧ Stmt.Made b
  | .defn _ name slot ba as b => Ident name ∧ slot = none ∧ (∀ a ∈ ba, a.Made ∧ a.default = none) ∧ (∀ a ∈ as, a.Made) ∧
      ((ba.toList ++ as).map AttrDef.name).Nodup ∧ b.isBody ∧ Stmt.Made b
  | .imports context path items => items ≠ [] ∧ (path = none ↔ context = true) ∧ (∀ p ∈ path, p ≠ []) ∧ ∀ i ∈ items, i.Made context
  | .tryBlock bs => (∀ s ∈ bs.take 1, s.role ≠ .piece ∧ s.role ≠ .block) ∧ (∀ s ∈ bs.drop 1, s.role = .els) ∧ Stmt.MadeAll bs
  | .ifBlock cs els => cs ≠ [] ∧ Stmt.MadeClauses cs ∧ (∀ s ∈ els, s.role = .els) ∧ Stmt.MadeOpt els
  | .elseClause b => (∀ s ∈ b, s.isBody) ∧ Stmt.MadeOpt b
  | .whileBlock t b els => t.Made ∧ (∀ s ∈ b, s.isBody) ∧ Stmt.MadeOpt b ∧ (∀ s ∈ els, s.role = .els) ∧ Stmt.MadeOpt els
  | .forBlock t e rest => (∃ ts, t = .many ts) ∧ t.Made ∧ e.Made ∧
      (∃ b els : Option (Stmt P), rest = b.toList ++ els.toList ∧ (∀ s ∈ b, s.isBody) ∧ ∀ s ∈ els, s.role = .els) ∧
      Stmt.MadeAll rest
  | .exprBlock e => e.Made
  | .assign t op e => t.Made ∧ (op ≠ none → ∃ n r w, t = .many [.var n true r w]) ∧ e.Made
  | .body ss => (∃ head tail, ss = head ++ tail ∧ head.length ≤ 1 ∧ (∀ s ∈ head, ∃ l, s = .line l) ∧ Stmt.Blocks tail) ∧
      Stmt.MadeAll ss
  | .pass => True
def Stmt.MadeAll : List (Stmt P) → Prop
  | [] => True
  | s :: ss => Stmt.Made s ∧ Stmt.MadeAll ss
def Stmt.MadeOpt : Option (Stmt P) → Prop
  | none => True
  | some s => Stmt.Made s
def Stmt.MadeClause : Expr × Option (Stmt P) → Prop
  | (t, b) => t.Made ∧ (∀ s ∈ b, s.isBody) ∧ Stmt.MadeOpt b
def Stmt.MadeClauses : List (Expr × Option (Stmt P)) → Prop
  | [] => True
  | c :: cs => Stmt.MadeClause c ∧ Stmt.MadeClauses cs
end

/-- A document: blocks, and an optional margin after the last one. -/
def Stmt.MadeDocument (ss : List (Stmt P)) : Prop :=
  (∃ blocks margin, ss = blocks ++ margin ∧ Stmt.Blocks blocks ∧ margin.length ≤ 1 ∧ ∀ s ∈ margin, ∃ w, s = .static w) ∧
  Stmt.MadeAll M U ss

end
end Verif
