import Verif.Spec.Written
import Verif.Spec.Source
import Verif.Spec.Preprocess

/-! How scripts are written: blocks, their bodies and clauses, laid out by indentation.

`Blocks k items ss`: the items, at the position `k` of the encoded script, are a written form of the
statements `ss`. In the auxiliary relations, a text `t` is the rest of a line, at the position `k` and the
column `c`; items after it are the group indented below the line, and the lines of further clauses. -/

namespace Verif.Spec
open Verif.Py

/-- A character of a line. -/
def TextChar (M : Marks) (c : Char) : Prop :=
  c ≠ '\n' ∧ c ≠ M.indentS ∧ c ≠ M.dedentS ∧ c ≠ M.indentT ∧ c ≠ M.dedentT

/-- The marks differ from each other, and from all characters that the grammar refers to, by themselves or
in classes: those of indentation, letters, digits, and characters of names of attributes. -/
class MarksApart (M : Marks) (U : Uni) : Prop where
  distinct : Marks.Distinct M
  high : ∀ c, isMark M c = true → 0x2768 ≤ c.toNat
  digit : ∀ c, isMark M c = true → U.digit c = false
  word : ∀ c, isMark M c = true → U.word c = false
  xml : ∀ c, isMark M c = true → U.xmlStart c = false ∧ U.xmlChar c = false

/-- Kinds of text: verbatim, normal (escaped) and markup. -/
inductive TextKind where
  | verbat
  | normal
  | markup
  deriving DecidableEq

/-- The mark of a kind of text. -/
def TextKind.mark : TextKind → Char
  | .verbat => '!'
  | .normal => '|'
  | .markup => '/'

/-- Nodes of a group that is indented by `inc`. -/
def bracket {α : Type} (opening closing : Char → α) (inc : Str) (xs : List α) : List α :=
  inc.map opening ++ xs ++ inc.reverse.map closing

/-- A name of a tag. A name beginning with `try` or `else` would be taken for a keyword; `context` may
begin a block of imports. -/
structure TagName (n : Str) : Prop extends Name n where
  notTry : ¬ s!!"try" <+: n
  notElse : ¬ s!!"else" <+: n
  notContext : n ≠ s!!"context"

/-- A name of an attribute: letters, digits, underscores, points, dashes and colons; the first character
is a letter or an underscore, the last one is not a colon. -/
structure XmlName (n : Str) : Prop where
  start : ∃ c s, n = c :: s ∧ nameStart c = true
  chars : ∀ c ∈ n, nameChar c = true ∨ c = '.' ∨ c = '-' ∨ c = ':'
  last : n.getLast? ≠ some ':'

/-- A value of a shortcut attribute. -/
def ShortName (n : Str) : Prop := n ≠ [] ∧ ∀ c ∈ n, nameChar c = true ∨ c = '-'

/-- A path of a module: no whitespace and quotes. -/
def PathText (p : Str) : Prop := p ≠ [] ∧ ∀ c ∈ p, isSpace c = false ∧ c ≠ '"' ∧ c ≠ '\''

/-- A variable with calls, indices, members and a qualifier. -/
def qualVar (n : Str) (ts : List Tail) (q : Option Qual) : Expr :=
  match ts, q with
  | [], none => .varUse n none
  | ts, q => .factor (.varUse n none) ts q

section
variable (M : Marks) (names : Str → Option Char)

/-- A comment at the end of a line, or nothing. -/
inductive Remark : Str → Prop
  | none : Remark []
  | hash {w s : Str} : Blanks w → (∀ c ∈ s, TextChar M c) → Remark (w ++ '#' :: s)
  | dashes {w s : Str} : Blanks w → (∀ c ∈ s, TextChar M c) → Remark (w ++ '-' :: '-' :: s)

/-- A comment after a tag: it is separated by blanks, and `#` is not taken for an attribute. -/
inductive TagRemark : Str → Prop
  | hash {w s : Str} : Blanks w → w ≠ [] → (∀ c ∈ s, TextChar M c) → (∀ c, s.head? = some c → c = ' ' ∨ c = '\t') →
      TagRemark (w ++ '#' :: s)
  | dashes {w s : Str} : Blanks w → w ≠ [] → (∀ c ∈ s, TextChar M c) → TagRemark (w ++ '-' :: '-' :: s)

/-- A line of text. -/
inductive TextLine : TextKind → Str → Line → Prop
  | verbat {t : Str} : t ≠ [] → (∀ c ∈ t, TextChar M c) → TextLine .verbat t (.verbat t)
  | normal {t : Str} {es : List Expr} : t ≠ [] → Parts M names none t es → TextLine .normal t (.normal es)
  | markup {t : Str} {es : List Expr} : t ≠ [] → Parts M names none t es → TextLine .markup t (.markup es)

/-- The text after a mark, maybe empty. -/
inductive FirstLine : TextKind → Str → List Line → Prop
  | none {kd : TextKind} : FirstLine kd [] []
  | some {kd : TextKind} {t : Str} {l : Line} : TextLine M names kd t l → FirstLine kd t [l]

/-- Lines of text and their layout. -/
inductive TextItems : TextKind → List Item → List TextItem → Prop
  | nil {kd : TextKind} : TextItems kd [] []
  | line {kd : TextKind} {m : Nat} {t : Str} {l : Line} {is : List Item} {xs : List TextItem} :
      TextLine M names kd t l → TextItems kd is xs →
      TextItems kd (.line m t :: is) (.margin ('\n' :: List.replicate m '\n') :: .line l :: xs)
  | group {kd : TextKind} {inc : Str} {js is : List Item} {ys xs : List TextItem} :
      Blanks inc → inc ≠ [] → js ≠ [] → TextItems kd js ys → TextItems kd is xs →
      TextItems kd (.group inc js :: is) (bracket .indent .dedent inc ys ++ xs)

/-- The group of lines under the first line of a text block. -/
inductive TextTail : TextKind → List Item → List TextItem → Prop
  | none {kd : TextKind} : TextTail kd [] []
  | group {kd : TextKind} {inc : Str} {js : List Item} {ys : List TextItem} :
      Blanks inc → inc ≠ [] → js ≠ [] → TextItems M names kd js ys → TextTail kd [.group inc js] (bracket .indent .dedent inc ys)

/-- The first line of a body, after its mark; one blank after the mark is left out. -/
inductive Headline : Str → List Line → Prop
  | close {kd : TextKind} {t : Str} {ls : List Line} : FirstLine M names kd t ls → (∀ c, t.head? = some c → c ≠ ' ' ∧ c ≠ '\t') →
      Headline (kd.mark :: t) ls
  | blank {kd : TextKind} {c : Char} {t : Str} {ls : List Line} : (c = ' ' ∨ c = '\t') → FirstLine M names kd t ls →
      Headline (kd.mark :: c :: t) ls

mutual
/-- Targets of an assignment. -/
inductive Targets : Str → List Target → Prop
  | one {t : Str} {x : Target} : OneTarget t x → Targets t [x]
  | trailing {t w : Str} {x : Target} : OneTarget t x → Blanks w → Targets (t ++ (w ++ [','])) [x]
  | cons {t w1 w2 t' : Str} {x : Target} {xs : List Target} : OneTarget t x → Blanks w1 → Blanks w2 →
      Targets t' xs → Targets (t ++ (w1 ++ (',' :: (w2 ++ t')))) (x :: xs)
/-- One target. -/
inductive OneTarget : Str → Target → Prop
  | var {n : Str} : Name n → OneTarget n (.var n false none none)
  | tuple {w t w' : Str} {xs : List Target} : Blanks w → Targets t xs → Blanks w' →
      OneTarget ('(' :: (w ++ (t ++ (w' ++ [')'])))) (.many xs)
end

/-- Items of a tuple after the first comma. -/
inductive More : Str → List Expr → Prop
  | last {w t : Str} {e : Expr} : Blanks w → Written M names 15 t e → More (w ++ t) [.root none e]
  | cons {w t w1 t' : Str} {e : Expr} {es : List Expr} : Blanks w → Written M names 15 t e → Blanks w1 →
      More t' es → More (w ++ (t ++ (w1 ++ (',' :: t')))) (.root none e :: es)

/-- An expression, or a tuple without parentheses. -/
inductive Augmented : Str → Expr → Prop
  | one {t : Str} {e : Expr} : Written M names 15 t e → Augmented t e
  | tuple {t w t' : Str} {e : Expr} {es : List Expr} : Written M names 15 t e → Blanks w → More M names t' es →
      Augmented (t ++ (w ++ (',' :: t'))) (.tuple (.root none e :: es))

/-- The expression is not taken for its first operand with a text or a body after it, which is the case
with `x | y`, `x / y`, `x != y`, `x : f`: it begins with an operator, or the first operand is followed by
a character that does not begin a text, a body or a comment. -/
inductive Compound : Str → Prop
  | minus {t : Str} : Compound ('-' :: t)
  | not {c : Char} {t : Str} : (c = ' ' ∨ c = '\t') → Compound (s!!"not" ++ c :: t)
  | operator {t w t' : Str} {c : Char} {e : Expr} : Written M names 1 t e → Blanks w →
      (w = [] → (s!!"*%+-<>=&^").elem c = true) →
      (s!!"|/!@:#([.? \t").elem c = false → (c = '-' → t' ≠ [] ∧ t'.head? ≠ some '-') → Compound (t ++ (w ++ (c :: t')))

/-- Values of attributes: an expression without blanks around operators, or an embedded expression. -/
inductive Value : Str → Expr → Prop
  | factor {t : Str} {e : Expr} : Written M names 1 t e → t.head? ≠ some '{' → t.head? ≠ some '$' →
      Value t (.root none e)
  | var {n t : Str} {ts : List Tail} {q : Option Qual} : Name n → Tails M names t ts →
      Value ('$' :: (n ++ (t ++ qualText q))) (.root none (qualVar n ts q))
  | braces {w x w' : Str} {e : Expr} : Blanks w → Written M names 15 x e → Blanks w' →
      Value ('{' :: (w ++ (x ++ (w' ++ ['}'])))) (.root none e)

/-- Attributes of a tag, each with its name if it has one, and whether it may be followed by a colon
without a blank. -/
inductive Attr : Str → Option Str → Expr → Bool → Prop
  | unnamed {t : Str} {e : Expr} : Value M names t e → (∀ c, t.head? = some c → nameStart c = false) → Attr t none e true
  | bare {n t : Str} {e : Expr} : Name n → Written M names 1 (n ++ t) e →
      (∀ c, t.head? = some c → (s!!"([?!").elem c = true) → Attr (n ++ t) none (.root none e) (!t.isEmpty)
  | named {n w1 w2 t : Str} {e : Expr} : XmlName n → Blanks w1 → Blanks w2 → Value M names t e →
      Attr (n ++ (w1 ++ ('=' :: (w2 ++ t)))) (some n) e true

/-- Shortcuts `.class` and `#id`. -/
inductive Shorts : Str → List (Str × Expr) → Prop
  | nil : Shorts [] []
  | cons {c : Char} {n t : Str} {xs : List (Str × Expr)} : (c = '.' ∨ c = '#') → ShortName n → Shorts t xs →
      Shorts (c :: (n ++ t)) ((if c = '.' then s!!"class" else s!!"id", .strLit n) :: xs)
  | braces {c : Char} {w x w' t : Str} {e : Expr} {xs : List (Str × Expr)} : (c = '.' ∨ c = '#') → Blanks w →
      Written M names 15 x e → Blanks w' → Shorts t xs →
      Shorts (c :: '{' :: (w ++ (x ++ (w' ++ ('}' :: t)))))
        ((if c = '.' then s!!"class" else s!!"id", .root none e) :: xs)

/-- Attributes after the first shortcuts. The flag tells if a colon may follow without a blank. After a
blank, `.5` is a number and not a shortcut. -/
inductive Attrs : Str → List (Option Str × Expr) → Bool → Prop
  | nil : Attrs [] [] true
  | last {w t : Str} {n : Option Str} {e : Expr} {b : Bool} : Blanks w → w ≠ [] → Attr M names t n e b →
      Attrs (w ++ t) [(n, e)] b
  | cons {w t t' : Str} {n : Option Str} {e : Expr} {b b' : Bool} {xs : List (Option Str × Expr)} :
      Blanks w → w ≠ [] → Attr M names t n e b → Attrs t' xs b' → t' ≠ [] → Attrs (w ++ (t ++ t')) ((n, e) :: xs) b'
  | shorts {w t t' : Str} {ss : List (Str × Expr)} {b : Bool} {xs : List (Option Str × Expr)} :
      Blanks w → w ≠ [] → Shorts M names t ss → ss ≠ [] → (∀ c s, t = '.' :: c :: s → c.toNat < 128 ∧ ascDigit c = false) →
      Attrs t' xs b →
      Attrs (w ++ (t ++ t')) (ss.map (fun x => (some x.1, x.2)) ++ xs) b

/-- A tag with attributes; unnamed ones come first. The flag is that of `Attrs`. -/
inductive Tag : Str → TagExp → Bool → Prop
  | tag {n t t' : Str} {ss : List (Str × Expr)} {xs : List (Option Str × Expr)} {us : List Expr}
      {ns : List (Str × Expr)} {b : Bool} : TagName n → Shorts M names t ss → Attrs M names t' xs b →
      ss.map (fun x => (some x.1, x.2)) ++ xs = us.map (fun e => (none, e)) ++ ns.map (fun x => (some x.1, x.2)) →
      Tag (n ++ (t ++ t')) (.tag n none us ns) b

/-- Several tags. -/
inductive Tags : Str → List TagExp → Bool → Prop
  | one {t : Str} {x : TagExp} {b : Bool} : Tag M names t x b → Tags t [x] b
  | cons {t w1 w2 t' : Str} {x : TagExp} {b b' : Bool} {xs : List TagExp} : Tag M names t x b → Blanks w1 → Blanks w2 →
      (b = false → w1 ≠ [] ) → Tags t' xs b' → Tags (t ++ (w1 ++ (':' :: (w2 ++ t')))) (x :: xs) b'

/-- A tag has attributes. -/
def TagExp.plain : TagExp → Bool
  | .tag _ _ us ns => us.isEmpty && ns.isEmpty
  | .null => true

/-- Formal attributes of a hypertag. -/
inductive Formals : Str → List AttrDef → Prop
  | nil : Formals [] []
  | name {w n t : Str} {as : List AttrDef} : Blanks w → w ≠ [] → Name n → Formals t as →
      Formals (w ++ (n ++ t)) (⟨n, none, none⟩ :: as)
  | default {w n w1 w2 v t : Str} {e : Expr} {as : List AttrDef} : Blanks w → w ≠ [] → Name n → Blanks w1 → Blanks w2 →
      Value M names v e → Formals t as →
      Formals (w ++ (n ++ (w1 ++ ('=' :: (w2 ++ (v ++ t)))))) (⟨n, some e, none⟩ :: as)

/-- The attribute of a hypertag that receives the body. -/
inductive BodyFormal : Str → Option AttrDef → Prop
  | none : BodyFormal [] none
  | some {w w' n : Str} : Blanks w → w ≠ [] → Blanks w' → Name n →
      BodyFormal (w ++ ('@' :: (w' ++ n))) (some ⟨n, .none, .none⟩)

/-- A symbol of an import: `%name` or `$name`, maybe renamed. -/
inductive Symbol : Str → Str → Option Str → Prop
  | plain {c : Char} {n : Str} : (c = '%' ∨ c = '$') → Name n → Symbol (c :: n) (c :: n) none
  | rename {c : Char} {n w1 w2 r : Str} : (c = '%' ∨ c = '$') → Name n → Blanks w1 → w1 ≠ [] → Blanks w2 → w2 ≠ [] →
      Name r → Symbol (c :: (n ++ (w1 ++ (s!!"as" ++ (w2 ++ r))))) (c :: n) (some r)

variable {P : Type}

/-- Items of an import. -/
inductive Imported : Str → ImportItem P → Prop
  | wild : Imported ['*'] (.wild none)
  | name {t s : Str} {r : Option Str} : Symbol t s r → Imported t (.name s r none)

/-- Items of a `context` block. -/
inductive Declared : Str → ImportItem P → Prop
  | name {t s : Str} {r : Option Str} : Symbol t s r → Declared t (.cntx s r none)

/-- Several items, separated by commas. -/
inductive Listed (I : Str → ImportItem P → Prop) : Str → List (ImportItem P) → Prop
  | one {t : Str} {x : ImportItem P} : I t x → Listed I t [x]
  | cons {t w1 w2 t' : Str} {x : ImportItem P} {xs : List (ImportItem P)} : I t x → Blanks w1 → Blanks w2 →
      Listed I t' xs → Listed I (t ++ (w1 ++ (',' :: (w2 ++ t')))) (x :: xs)

/-- A block of text: the mark, the first line, and the lines below. -/
inductive TextBlock (c : Nat) : Str → List Item → Stmt P → Prop
  | text {kd : TextKind} {t : Str} {ls : List Line} {is : List Item} {xs : List TextItem} :
      FirstLine M names kd t ls → TextTail M names kd is xs →
      TextBlock c (kd.mark :: t) is (.text c (ls.map .line ++ xs))
  | embed {w t r : Str} {e : Expr} : Blanks w → Written M names 15 t e → Remark M r →
      TextBlock c ('@' :: (w ++ (t ++ r))) [] (.embed (.root none e))

mutual
/-- A list of blocks, at the position `k`. -/
inductive Blocks : Nat → List Item → List (Stmt P) → Prop
  | nil {k : Nat} : Blocks k [] []
  | cons {k m : Nat} {t : Str} {is rest : List Item} {s : Stmt P} {ss : List (Stmt P)} :
      Block (k + 1 + m) 1 t is s →
      Blocks (k + (itemsFlat M (.line m t :: is)).length) rest ss →
      Blocks k (.line m t :: (is ++ rest)) (.xblock (List.replicate m '\n') none s :: ss)
  | dedent {k m : Nat} {w t : Str} {is rest : List Item} {s : Stmt P} {ss : List (Stmt P)} :
      Blanks w → Block (k + 1 + m + 1 + w.length) (2 + w.length) t is s →
      Blocks (k + (itemsFlat M (.line m ('<' :: (w ++ t)) :: is)).length) rest ss →
      Blocks k (.line m ('<' :: (w ++ t)) :: (is ++ rest)) (.xblock (List.replicate m '\n') (some .dedent) s :: ss)
  | append {k m : Nat} {w t : Str} {is rest : List Item} {s : Stmt P} {ss : List (Stmt P)} :
      Blanks w → Block (k + 1 + m + 3 + w.length) (4 + w.length) t is s →
      Blocks (k + (itemsFlat M (.line m (s!!"..." ++ (w ++ t)) :: is)).length) rest ss →
      Blocks k (.line m (s!!"..." ++ (w ++ t)) :: (is ++ rest)) (.xblock (List.replicate m '\n') (some .append) s :: ss)

/-- No blocks, or an indented group of them. -/
inductive Nested : Nat → List Item → List (Stmt P) → Prop
  | none {k : Nat} : Nested k [] []
  | group {k : Nat} {inc : Str} {js : List Item} {ss : List (Stmt P)} : Blanks inc → inc ≠ [] → js ≠ [] →
      Blocks (k + inc.length) js ss → Nested k [.group inc js] (bracket .indent .dedent inc ss)

/-- The body of a tag or of a hypertag. -/
inductive StructBody : Nat → Nat → Str → List Item → Stmt P → Prop
  | text {k c : Nat} {w t : Str} {is : List Item} {s : Stmt P} : Blanks w → TextBlock M names (c + w.length) t is s →
      StructBody k c (w ++ t) is s
  | plain {k c : Nat} {is : List Item} {ss : List (Stmt P)} : Nested k is ss → StructBody k c [] is (.body ss)
  | remark {k c : Nat} {r : Str} {is : List Item} {ss : List (Stmt P)} : TagRemark M r →
      Nested (k + r.length) is ss → StructBody k c r is (.body ss)
  | colon {k c : Nat} {w r : Str} {is : List Item} {ss : List (Stmt P)} : Blanks w → Remark M r →
      Nested (k + w.length + 1 + r.length) is ss → StructBody k c (w ++ (':' :: r)) is (.body ss)
  | headline {k c : Nat} {w w' h : Str} {ls : List Line} {is : List Item} {ss : List (Stmt P)} : Blanks w → Blanks w' →
      Headline M names h ls → Nested (k + w.length + 1 + w'.length + h.length) is ss →
      StructBody k c (w ++ (':' :: (w' ++ h))) is (.body (ls.map .line ++ ss))

/-- The body of a control block, without a text on the same line. -/
inductive BlockBody : Nat → Str → List Item → Stmt P → Prop
  | colon {k : Nat} {w r : Str} {is : List Item} {ss : List (Stmt P)} : Blanks w → Remark M r →
      Nested (k + w.length + 1 + r.length) is ss → BlockBody k (w ++ (':' :: r)) is (.body ss)
  | plain {k : Nat} {r : Str} {is : List Item} {ss : List (Stmt P)} : Remark M r → Nested (k + r.length) is ss →
      is ≠ [] → BlockBody k r is (.body ss)

/-- The body of a control block. -/
inductive ControlBody : Nat → Nat → Str → List Item → Stmt P → Prop
  | text {k c : Nat} {w t : Str} {is : List Item} {s : Stmt P} : Blanks w → TextBlock M names (c + w.length) t is s →
      ControlBody k c (w ++ t) is s
  | body {k c : Nat} {t : Str} {is : List Item} {s : Stmt P} : BlockBody k t is s → ControlBody k c t is s

/-- A condition with the body that depends on it, after a keyword. -/
inductive Clause : Nat → Nat → Str → List Item → Expr → Option (Stmt P) → Prop
  | factor {k c : Nat} {w t t' : Str} {e : Expr} {is : List Item} {b : Stmt P} : Blanks w → w ≠ [] →
      Written M names 1 t e → t'.head? ≠ some '!' →
      ControlBody (k + w.length + t.length) (c + w.length + t.length) t' is b →
      Clause k c (w ++ (t ++ t')) is (.root none e) (some b)
  | compound {k c : Nat} {w t t' : Str} {e : Expr} {is : List Item} {b : Stmt P} : Blanks w → w ≠ [] →
      Written M names 15 t e → Compound M names t → BlockBody (k + w.length + t.length) t' is b →
      Clause k c (w ++ (t ++ t')) is (.root none e) (some b)
  | empty {k c : Nat} {w t : Str} {e : Expr} : Blanks w → w ≠ [] → Written M names 15 t e →
      (Compound M names t ∨ Written M names 1 t e) → Clause k c (w ++ t) [] (.root none e) none

/-- The expression of a loop, with the body. -/
inductive Loop : Nat → Nat → Str → List Item → Expr → List (Stmt P) → Prop
  | factor {k c : Nat} {t t' : Str} {e : Expr} {is : List Item} {b : Stmt P} : Written M names 1 t e →
      t'.head? ≠ some '!' → ControlBody (k + t.length) (c + t.length) t' is b →
      Loop k c (t ++ t') is (.root none e) [b]
  | compound {k c : Nat} {t t' : Str} {e : Expr} {is : List Item} {b : Stmt P} : Augmented M names t e →
      Compound M names t → BlockBody (k + t.length) t' is b → Loop k c (t ++ t') is (.root none e) [b]
  | empty {k c : Nat} {t : Str} {e : Expr} : Augmented M names t e →
      (Compound M names t ∨ Written M names 1 t e) → Loop k c t [] (.root none e) []

/-- A clause `else`. -/
inductive Else : Nat → List Item → Stmt P → Prop
  | body {k m : Nat} {t : Str} {is : List Item} {b : Stmt P} : ControlBody (k + 1 + m + 4) 5 t is b →
      Else k (.line m (s!!"else" ++ t) :: is) (.elseClause (some b))
  | empty {k m : Nat} : Else k [.line m (s!!"else")] (.elseClause none)

/-- At most one clause `else`. -/
inductive MaybeElse : Nat → List Item → Option (Stmt P) → Prop
  | none {k : Nat} : MaybeElse k [] none
  | some {k : Nat} {is : List Item} {s : Stmt P} : Else k is s → MaybeElse k is (some s)

/-- Any number of clauses `else`. -/
inductive Elses : Nat → List Item → List (Stmt P) → Prop
  | nil {k : Nat} : Elses k [] []
  | cons {k : Nat} {is js : List Item} {s : Stmt P} {ss : List (Stmt P)} : Else k is s →
      Elses (k + (itemsFlat M is).length) js ss → Elses k (is ++ js) (s :: ss)

/-- Clauses `elif`. -/
inductive Elifs : Nat → List Item → List (Expr × Option (Stmt P)) → Prop
  | nil {k : Nat} : Elifs k [] []
  | cons {k m : Nat} {t : Str} {is js : List Item} {e : Expr} {b : Option (Stmt P)} {cs : List (Expr × Option (Stmt P))} :
      Clause (k + 1 + m + 4) 5 t is e b → Elifs (k + (itemsFlat M (.line m (s!!"elif" ++ t) :: is)).length) js cs →
      Elifs k (.line m (s!!"elif" ++ t) :: (is ++ js)) ((e, b) :: cs)

/-- A block with tags, or a text. -/
inductive StructBlock : Nat → Nat → Str → List Item → Stmt P → Prop
  | text {k c : Nat} {t : Str} {is : List Item} {s : Stmt P} : TextBlock M names c t is s → StructBlock k c t is s
  | tags {k c : Nat} {t t' : Str} {ts : List TagExp} {f : Bool} {is : List Item} {b : Stmt P} : Tags M names t ts f →
      (t'.head? = some '!' → ∀ x ∈ ts, TagExp.plain x = true) → (f = false → t'.head? ≠ some ':') →
      StructBody (k + t.length) (c + t.length) t' is b → StructBlock k c (t ++ t') is (.struct ts b)
  | null {k c : Nat} {t : Str} {is : List Item} {b : Stmt P} : StructBody (k + 1) (c + 1) t is b →
      StructBlock k c ('.' :: t) is (.struct [.null] b)

/-- A block: the text `t` and the items that belong to it. -/
inductive Block : Nat → Nat → Str → List Item → Stmt P → Prop
  | struct {k c : Nat} {t : Str} {is : List Item} {s : Stmt P} : StructBlock k c t is s → Block k c t is s
  | comment {k c : Nat} {t : Str} {is : List Item} {mark : Str} {xs : List TextItem} : (mark = ['#'] ∨ mark = ['-', '-']) →
      (∀ c ∈ t, TextChar M c) → TextTail M names .verbat is xs → Block k c (mark ++ t) is .comment
  | pass {k c : Nat} : Block k c (s!!"pass") [] .pass
  | assign {k c : Nat} {w t w1 w2 x r : Str} {ts : List Target} {e : Expr} : Blanks w → Targets t ts → Blanks w1 →
      Blanks w2 → Augmented M names x e → Remark M r →
      Block k c ('$' :: (w ++ (t ++ (w1 ++ ('=' :: (w2 ++ (x ++ r))))))) [] (.assign (.many ts) none (.root none e))
  | inplace {k c : Nat} {w n w1 op w2 x r : Str} {e : Expr} : Blanks w → Name n → Blanks w1 →
      op ∈ [s!!"//", s!!"%", s!!"<<", s!!">>", s!!"-", s!!"+", s!!"*", s!!"/", s!!"&", s!!"|", s!!"^"] →
      Blanks w2 → Augmented M names x e → Remark M r →
      Block k c ('$' :: (w ++ (n ++ (w1 ++ (op ++ ('=' :: (w2 ++ (x ++ r)))))))) []
        (.assign (.many [.var n true none none]) (some op) (.root none e))
  | expr {k c : Nat} {w n t r : Str} {e : Expr} : Blanks w → Name n → Written M names 1 (n ++ t) e →
      (∀ c, t.head? = some c → (s!!"([.?!").elem c = true) → Remark M r →
      Block k c ('$' :: (w ++ (n ++ (t ++ r)))) [] (.exprBlock (.root none e))
  | ifBlock {k c : Nat} {t : Str} {is js ls : List Item} {e : Expr} {b : Option (Stmt P)}
      {cs : List (Expr × Option (Stmt P))} {els : Option (Stmt P)} : Clause (k + 2) (c + 2) t is e b →
      Elifs (k + 2 + t.length + (itemsFlat M is).length) js cs →
      MaybeElse (k + 2 + t.length + (itemsFlat M (is ++ js)).length) ls els →
      Block k c (s!!"if" ++ t) (is ++ (js ++ ls)) (.ifBlock ((e, b) :: cs) els)
  | whileBlock {k c : Nat} {t : Str} {is ls : List Item} {e : Expr} {b els : Option (Stmt P)} :
      Clause (k + 5) (c + 5) t is e b → MaybeElse (k + 5 + t.length + (itemsFlat M is).length) ls els →
      Block k c (s!!"while" ++ t) (is ++ ls) (.whileBlock e b els)
  | forBlock {k c : Nat} {w t w1 w2 t' : Str} {xs : List Target} {is ls : List Item} {e : Expr} {bs : List (Stmt P)}
      {els : Option (Stmt P)} : Blanks w → w ≠ [] → Targets t xs → Blanks w1 → w1 ≠ [] → Blanks w2 → w2 ≠ [] →
      Loop (k + 3 + w.length + t.length + w1.length + 2 + w2.length)
        (c + 3 + w.length + t.length + w1.length + 2 + w2.length) t' is e bs →
      MaybeElse (k + 3 + w.length + t.length + w1.length + 2 + w2.length + t'.length + (itemsFlat M is).length) ls els →
      Block k c (s!!"for" ++ (w ++ (t ++ (w1 ++ (s!!"in" ++ (w2 ++ t')))))) (is ++ ls)
        (.forBlock (.many xs) e (bs ++ els.toList))
  | tryBlock {k c : Nat} {t : Str} {is ls : List Item} {b : Stmt P} {ss : List (Stmt P)} :
      ControlBody (k + 3) (c + 3) t is b → Elses (k + 3 + t.length + (itemsFlat M is).length) ls ss →
      Block k c (s!!"try" ++ t) (is ++ ls) (.tryBlock (b :: ss))
  | optional {k c : Nat} {w t : Str} {is : List Item} {s : Stmt P} : Blanks w →
      StructBlock (k + 1 + w.length) (c + 1 + w.length) t is s →
      Block k c ('?' :: (w ++ t)) is (.tryBlock [s])
  | define {k c : Nat} {w n t t' t'' : Str} {body : Option AttrDef} {as : List AttrDef} {is : List Item} {b : Stmt P} :
      Blanks w → Name n → BodyFormal t body → Formals M names t' as →
      ((body.toList ++ as).map AttrDef.name).Nodup → (t''.head? = some '!' → ∀ a ∈ as, a.default = none) →
      (t = [] → t' = [] → ∀ w s, Blanks w → w ≠ [] → t'' ≠ w ++ ('@' :: s)) →
      StructBody (k + 1 + w.length + n.length + t.length + t'.length)
        (c + 1 + w.length + n.length + t.length + t'.length) t'' is b →
      Block k c ('%' :: (w ++ (n ++ (t ++ (t' ++ t''))))) is (.defn k n none body as b)
  | imports {k c : Nat} {w1 p w2 w3 t r : Str} {xs : List (ImportItem P)} : Blanks w1 → w1 ≠ [] → PathText p →
      Blanks w2 → w2 ≠ [] → Blanks w3 → w3 ≠ [] → Listed Imported t xs → Remark M r →
      Block k c (s!!"from" ++ (w1 ++ (p ++ (w2 ++ (s!!"import" ++ (w3 ++ (t ++ r))))))) [] (.imports false (some p) xs)
  | context {k c : Nat} {w t r : Str} {xs : List (ImportItem P)} : Blanks w → w ≠ [] → Listed Declared t xs → Remark M r →
      Block k c (s!!"context" ++ (w ++ (t ++ r))) [] (.imports true none xs)
end

end
end Verif.Spec
