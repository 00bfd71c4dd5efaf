import Verif.Model.Setup

/-! How expressions are written. `Written l t e`: the text `t` is a written form of the expression `e`
that may be an operand of operators looser than the level `l`.

| level | expressions |
|---|---|
| 0 | atoms: literals, names, expressions in parentheses, collections |
| 1 | atoms with calls, indices, members and a qualifier |
| 2 | `**` |
| 3 | `*`, `/`, `//`, `%` |
| 4 | `+`, `-`, a leading minus |
| 5 | `<<`, `>>` |
| 6, 7, 8 | `&`, `^`, `\|` |
| 9 | filters: `x : f` |
| 10 | concatenation: `x y` |
| 11 | comparisons |
| 12 | `not` |
| 13, 14 | `and`, `or` |
| 15 | `x if c else y` |

Operators of the same level form a chain. Blanks around operators are arbitrary, with the exceptions
listed in `Sep`. An expression in parentheses, an item of a collection, an argument of a call and an
index are enclosed in a node `root`. -/

namespace Verif.Spec
open Verif.Py

/-- Blanks and tabs only. -/
def Blanks (w : Str) : Prop := ∀ c ∈ w, c = ' ' ∨ c = '\t'

/-- An identifier: letters, digits and underscores, not beginning with a digit; not a keyword. -/
structure Name (n : Str) : Prop where
  start : ∃ c s, n = c :: s ∧ nameStart c = true ∧ c.toNat < 128
  chars : ∀ c ∈ n, nameChar c = true
  notReserved : n ∉ reservedNames

/-- A name of a variable without the mark `$`: the grammar takes a beginning `True`, `False` or `None` for
a literal. -/
structure VarName (n : Str) : Prop extends Name n where
  notLiteral : ¬ s!!"True" <+: n ∧ ¬ s!!"False" <+: n ∧ ¬ s!!"None" <+: n

/-- Digits, maybe a point and further digits. -/
def IsDecimal (t : Str) : Prop :=
  ∃ ds, ds ≠ [] ∧ (∀ c ∈ ds, ascDigit c = true) ∧
    (t = ds ∨ ∃ fs, (∀ c ∈ fs, ascDigit c = true) ∧ t = ds ++ '.' :: fs)

/-- No exponent, or the letter `e`, maybe a sign, and digits. -/
def IsExponent (t : Str) : Prop :=
  t = [] ∨ ∃ e sign ds, (e = 'e' ∨ e = 'E') ∧ (sign = [] ∨ sign = ['+'] ∨ sign = ['-']) ∧ ds ≠ [] ∧
    (∀ c ∈ ds, ascDigit c = true) ∧ t = e :: (sign ++ ds)

/-- An unsigned number. -/
def IsNumber (t : Str) : Prop := ∃ d x, IsDecimal d ∧ IsExponent x ∧ t = d ++ x

/-- Operators between operands, by level; the empty one is concatenation. -/
def binOps : Nat → List Str
  | 2 => [s!!"**"]
  | 3 => [s!!"*", s!!"/", s!!"//", s!!"%"]
  | 4 => [s!!"+", s!!"-"]
  | 5 => [s!!"<<", s!!">>"]
  | 6 => [s!!"&"]
  | 7 => [s!!"^"]
  | 8 => [s!!"|"]
  | 10 => [[]]
  | 11 => [s!!"==", s!!"!=", s!!"<>", s!!">=", s!!"<=", s!!"<", s!!">", s!!"in", s!!"is", s!!"not in",
      s!!"is not"]
  | 13 => [s!!"and"]
  | 14 => [s!!"or"]
  | _ => []

/-- The operator is a word. -/
def isWordOp (op : Str) : Bool :=
  [s!!"in", s!!"is", s!!"not in", s!!"is not", s!!"and", s!!"or"].elem op

/-- The text of an operator: between the words of `not in` and `is not` there may be more blanks than one. -/
inductive OpForm : Str → Str → Prop
  | same (op : Str) : OpForm op op
  | notIn {w : Str} : Blanks w → w ≠ [] → OpForm (s!!"not in") (s!!"not" ++ (w ++ s!!"in"))
  | isNot {w : Str} : Blanks w → w ≠ [] → OpForm (s!!"is not") (s!!"is" ++ (w ++ s!!"not"))

/-- An operator `op` with blanks `w1`, `w2` around it, before the operand `t`. -/
structure Sep (l : Nat) (w1 op w2 t : Str) : Prop where
  mem : op ∈ binOps l
  blanks1 : Blanks w1
  blanks2 : Blanks w2
  /-- words need blanks around them -/
  word : isWordOp op = true → w1 ≠ [] ∧ w2 ≠ []
  /-- `x!=y` would be read as `x! =y` -/
  neq : op = s!!"!=" → w1 ≠ []
  /-- `x is nothing` would be read as `x is not hing` -/
  isnot : op = s!!"is" → ¬ s!!"not" <+: t
  /-- `x (y)`, `x [y]`, `x .y`, `x -y`, `x %y` would be read as call, index, member, difference, modulo -/
  juxtaposed : op = [] → w1 ≠ [] ∧ w2 = [] ∧ ∀ c, t.head? = some c → (s!!"([.-%").elem c = false

/-- The node of a chain. -/
def combine (l : Nat) (h : Expr) (os : List Str) (es : List Expr) : Expr :=
  match l with
  | 6 => .bits (s!!"&") h es
  | 7 => .bits (s!!"^") h es
  | 8 => .bits (s!!"|") h es
  | 10 => .concat (h :: es)
  | 13 => .andTest h es
  | 14 => .orTest h es
  | _ => .chain false h os es

/-- The text of a qualifier. -/
def qualText : Option Qual → Str
  | none => []
  | some .opt => ['?']
  | some .obl => ['!']

/-- A character of a string in quotes `q`, or of a line of text (`none`), that stands for itself or is a
part of an escape sequence with a backslash. -/
def plainChar (M : Marks) (q : Option Char) (c : Char) : Prop :=
  c ≠ '$' ∧ c ≠ '{' ∧ c ≠ '}' ∧ c ≠ '\n' ∧ some c ≠ q ∧
    c ≠ M.indentS ∧ c ≠ M.dedentS ∧ c ≠ M.indentT ∧ c ≠ M.dedentT

/-- The value of a piece of text: in strings, escape sequences are decoded. -/
def pieceValue (names : Str → Option Char) (q : Option Char) (s : Str) : Option Str :=
  match q with
  | none => some s
  | some _ => decodeEscapes names s

section
variable (M : Marks) (names : Str → Option Char)

mutual
inductive Written : Nat → Str → Expr → Prop
  -- literals and names
  | number {n : Str} : IsNumber n → Written 0 n (.number n)
  | true : Written 0 (s!!"True") (.boolean true)
  | false : Written 0 (s!!"False") (.boolean false)
  | none : Written 0 (s!!"None") .noneLit
  | string {q : Char} {t : Str} {es : List Expr} : (q = '\'' ∨ q = '"') → Parts (some q) t es →
      Written 0 (q :: (t ++ [q])) (.format es)
  | raw {q : Char} {t : Str} : (q = '\'' ∨ q = '"') → q ∉ t → '\n' ∉ t → Written 0 ('r' :: q :: (t ++ [q])) (.strLit t)
  | var {n : Str} : VarName n → Written 0 n (.varUse n none)
  | dollar {n : Str} : Name n → Written 0 ('$' :: n) (.varUse n none)
  | tag {n : Str} : Name n → Written 0 ('%' :: n) (.tagUse ('%' :: n) none)
  -- parentheses and collections
  | paren {w t w' : Str} {e : Expr} : Blanks w → Written 15 t e → Blanks w' →
      Written 0 ('(' :: (w ++ t ++ w' ++ [')'])) (.root none e)
  | list {w t l : Str} {es fs : List Expr} : Blanks w → Items t es → Last l fs →
      Written 0 ('[' :: (w ++ t ++ l ++ [']'])) (.list (es ++ fs))
  | unit {w : Str} : Blanks w → Written 0 ('(' :: (w ++ [')'])) (.tuple [])
  | tuple {w t l : Str} {es fs : List Expr} : Blanks w → Items t es → es ≠ [] → Last l fs →
      Written 0 ('(' :: (w ++ t ++ l ++ [')'])) (.tuple (es ++ fs))
  | set {w t t' w' : Str} {e : Expr} {es : List Expr} : Blanks w → Written 8 t e → Elems t' es → Blanks w' →
      Written 0 ('{' :: (w ++ t ++ t' ++ w' ++ ['}'])) (.set (.root none e :: es))
  | dict {w t w' : Str} {es : List Expr} : Blanks w → Pairs t es → Blanks w' →
      Written 0 ('{' :: (w ++ t ++ w' ++ ['}'])) (.dict es)
  -- calls, indices, members, qualifiers
  | tails {t t' : Str} {a : Expr} {ts : List Tail} {q : Option Qual} : Written 0 t a → Tails t' ts → ts ≠ [] →
      (∀ c, t.head? = some c → ascDigit c = true → t'.head? ≠ some '.') →
      Written 1 (t ++ t' ++ qualText q) (.factor a ts q)
  | qualified {t : Str} {a : Expr} {q : Qual} : Written 0 t a → (∀ p e, a ≠ .root p e) →
      Written 1 (t ++ qualText (some q)) (.factor a [] (some q))
  -- operators
  | up {l : Nat} {t : Str} {e : Expr} : Written l t e → l < 15 → Written (l + 1) t e
  | chain {l : Nat} {t t' : Str} {h : Expr} {os : List Str} {es : List Expr} :
      Written l t h → Chain (l + 1) t' os es → os ≠ [] →
      Written (l + 1) (t ++ t') (combine (l + 1) h os es)
  | minus {w t t' : Str} {h : Expr} {os : List Str} {es : List Expr} :
      Blanks w → Written 3 t h → Chain 4 t' os es →
      Written 4 ('-' :: (w ++ t ++ t')) (.chain true h os es)
  | pipeline {t t' : Str} {h : Expr} {es : List Expr} : Written 8 t h → Filters t' es → es ≠ [] →
      Written 9 (t ++ t') (.pipeline h es)
  | nots {n : Nat} {t t' : Str} {e : Expr} : Nots (n + 1) t → Written 11 t' e →
      Written 12 (t ++ t') (.notTest (n + 1) e)
  | ifOnly {x w1 w2 c : Str} {ex ec : Expr} : Written 14 x ex → Blanks w1 → w1 ≠ [] → Blanks w2 → w2 ≠ [] →
      Written 14 c ec →
      Written 15 (x ++ (w1 ++ (s!!"if" ++ (w2 ++ c)))) (.ifElse ex ec none)
  | ifElse {x w1 w2 c w3 w4 y : Str} {ex ec ey : Expr} : Written 14 x ex → Blanks w1 → w1 ≠ [] →
      Blanks w2 → w2 ≠ [] → Written 14 c ec → Blanks w3 → w3 ≠ [] → Blanks w4 → w4 ≠ [] → Written 15 y ey →
      Written 15 (x ++ (w1 ++ (s!!"if" ++ (w2 ++ (c ++ (w3 ++ (s!!"else" ++ (w4 ++ y))))))))
        (.ifElse ex ec (some ey))

/-- The operators and operands of a chain after the first operand. -/
inductive Chain : Nat → Str → List Str → List Expr → Prop
  | nil {l : Nat} : Chain l [] [] []
  | cons {l : Nat} {w1 op o w2 t t' : Str} {e : Expr} {os : List Str} {es : List Expr} :
      Sep (l + 1) w1 op w2 t → OpForm op o → Written l t e → Chain (l + 1) t' os es →
      Chain (l + 1) (w1 ++ (o ++ (w2 ++ (t ++ t')))) (op :: os) (e :: es)

/-- The keywords `not`. -/
inductive Nots : Nat → Str → Prop
  | nil : Nots 0 []
  | cons {n : Nat} {w t : Str} : Blanks w → w ≠ [] → Nots n t → Nots (n + 1) (s!!"not" ++ w ++ t)

/-- The filters of a pipeline: an atom with indices and members, and maybe arguments. -/
inductive Filters : Str → List Expr → Prop
  | nil : Filters [] []
  | plain {w1 w2 t t' : Str} {e : Expr} {es : List Expr} :
      Blanks w1 → Blanks w2 → FilterName t e → Filters t' es →
      Filters (w1 ++ (':' :: (w2 ++ (t ++ t')))) (.factor e [] none :: es)
  | args {w1 w2 t w3 a t' : Str} {e : Expr} {ns : List (Option Str)} {as es : List Expr} :
      Blanks w1 → Blanks w2 → FilterName t e → Blanks w3 → Args a ns as → Filters t' es →
      Filters (w1 ++ (':' :: (w2 ++ (t ++ ('(' :: (w3 ++ (a ++ (')' :: t'))))))))
        (.factor e [.partialCall ns as] none :: es)

/-- The name of a filter. -/
inductive FilterName : Str → Expr → Prop
  | atom {t : Str} {e : Expr} : Written 0 t e → FilterName t e
  | tails {t t' : Str} {a : Expr} {ts : List Tail} : Written 0 t a → Tails t' ts → ts ≠ [] →
      (∀ ns as, Tail.call ns as ∉ ts) →
      (∀ c, t.head? = some c → ascDigit c = true → t'.head? ≠ some '.') →
      FilterName (t ++ t') (.factor a ts none)

/-- Calls, indices and members after an atom. -/
inductive Tails : Str → List Tail → Prop
  | nil : Tails [] []
  | call {w t t' : Str} {ns : List (Option Str)} {es : List Expr} {ts : List Tail} :
      Blanks w → Args t ns es → Tails t' ts → Tails ('(' :: (w ++ (t ++ (')' :: t')))) (.call ns es :: ts)
  | index {w t w' t' : Str} {e : Expr} {ts : List Tail} : Blanks w → Written 8 t e → Blanks w' → Tails t' ts →
      Tails ('[' :: (w ++ (t ++ (w' ++ (']' :: t'))))) (.index [.root none e] :: ts)
  | slice {t1 t2 t' : Str} {e1 e2 : Expr} {ts : List Tail} : Bound t1 e1 → Bound t2 e2 → Tails t' ts →
      Tails ('[' :: (t1 ++ (':' :: (t2 ++ (']' :: t'))))) (.index [e1, e2] :: ts)
  | sliceStep {t1 t2 t3 t' : Str} {e1 e2 e3 : Expr} {ts : List Tail} : Bound t1 e1 → Bound t2 e2 →
      Bound t3 e3 → Tails t' ts →
      Tails ('[' :: (t1 ++ (':' :: (t2 ++ (':' :: (t3 ++ (']' :: t'))))))) (.index [e1, e2, e3] :: ts)
  | member {w n t' : Str} {ts : List Tail} : Blanks w → Name n → Tails t' ts →
      Tails ('.' :: (w ++ (n ++ t'))) (.member n :: ts)

/-- A bound of a slice. -/
inductive Bound : Str → Expr → Prop
  | empty {w : Str} : Blanks w → Bound w .sliceNone
  | expr {w t w' : Str} {e : Expr} : Blanks w → Written 8 t e → Blanks w' → Bound (w ++ (t ++ w')) (.root none e)

/-- Arguments of a call, with the blanks after them. -/
inductive Args : Str → List (Option Str) → List Expr → Prop
  | none : Args [] [] []
  | last {t w : Str} {n : Option Str} {e : Expr} : Arg t n e → Blanks w → Args (t ++ w) [n] [e]
  | cons {t w1 w2 t' : Str} {n : Option Str} {e : Expr} {ns : List (Option Str)} {es : List Expr} :
      Arg t n e → Blanks w1 → Blanks w2 → Args t' ns es → ns ≠ [] →
      Args (t ++ (w1 ++ (',' :: (w2 ++ t')))) (n :: ns) (e :: es)

/-- One argument. -/
inductive Arg : Str → Option Str → Expr → Prop
  | positional {t : Str} {e : Expr} : Written 15 t e → Arg t .none (.root .none e)
  | keyword {n w1 w2 t : Str} {e : Expr} : Name n → Blanks w1 → Blanks w2 → Written 15 t e →
      Arg (n ++ (w1 ++ ('=' :: (w2 ++ t)))) (some n) (.root .none e)

/-- Items of a list or a tuple, each followed by a comma. -/
inductive Items : Str → List Expr → Prop
  | nil : Items [] []
  | cons {t w1 w2 t' : Str} {e : Expr} {es : List Expr} : Written 15 t e → Blanks w1 → Blanks w2 → Items t' es →
      Items (t ++ (w1 ++ (',' :: (w2 ++ t')))) (.root none e :: es)

/-- The last item, if it is not followed by a comma. -/
inductive Last : Str → List Expr → Prop
  | none : Last [] []
  | one {t w : Str} {e : Expr} : Written 15 t e → Blanks w → Last (t ++ w) [.root .none e]

/-- Elements of a set after the first one. -/
inductive Elems : Str → List Expr → Prop
  | nil : Elems [] []
  | cons {w1 w2 t t' : Str} {e : Expr} {es : List Expr} : Blanks w1 → Blanks w2 → Written 15 t e → Elems t' es →
      Elems (w1 ++ (',' :: (w2 ++ (t ++ t')))) (.root none e :: es)

/-- Items of a dictionary: keys and values alternate. -/
inductive Pairs : Str → List Expr → Prop
  | nil : Pairs [] []
  | last {k w1 w2 v : Str} {ek ev : Expr} : Written 8 k ek → Blanks w1 → Blanks w2 → Written 15 v ev →
      Pairs (k ++ (w1 ++ (':' :: (w2 ++ v)))) [.root none ek, .root none ev]
  | cons {k w1 w2 v w3 w4 t : Str} {ek ev : Expr} {es : List Expr} : Written 8 k ek → Blanks w1 → Blanks w2 →
      Written 15 v ev → Blanks w3 → Blanks w4 → Pairs t es → es ≠ [] →
      Pairs (k ++ (w1 ++ (':' :: (w2 ++ (v ++ (w3 ++ (',' :: (w4 ++ t))))))))
        (.root none ek :: .root none ev :: es)

/-- The contents of a string in quotes `q`, or of a line of text: pieces of text, doubled characters,
expressions in braces, and variables after `$`. -/
inductive Parts : Option Char → Str → List Expr → Prop
  | nil {q : Option Char} : Parts q [] []
  | text {q : Option Char} {s v t : Str} {es : List Expr} : s ≠ [] → (∀ c ∈ s, plainChar M q c) →
      pieceValue names q s = some v → Parts q t es →
      (∀ c, t.head? = some c → c = '$' ∨ c = '{' ∨ c = '}') → Parts q (s ++ t) (.static v :: es)
  | doubled {q : Option Char} {c : Char} {t : Str} {es : List Expr} : (c = '$' ∨ c = '{' ∨ c = '}') →
      Parts q t es → Parts q (c :: c :: t) (.static [c] :: es)
  | braces {q : Option Char} {w x w' t : Str} {e : Expr} {es : List Expr} : Blanks w → Written 15 x e →
      Blanks w' → (w = [] → x.head? ≠ some '{') → Parts q t es →
      (∀ c, t.head? = some c → c ≠ '?' ∧ c ≠ '!') →
      Parts q ('{' :: (w ++ (x ++ (w' ++ ('}' :: t))))) (.root none e :: es)
  | var {q : Option Char} {n t : Str} {es : List Expr} : Name n → Parts q t es →
      (∀ c, t.head? = some c → nameChar c = false ∧ (s!!"([.?!").elem c = false) →
      Parts q ('$' :: (n ++ t)) (.root none (.varUse n none) :: es)
  | varTails {q : Option Char} {n t' t : Str} {ts : List Tail} {es : List Expr} : Name n → Tails t' ts → ts ≠ [] →
      Parts q t es → (∀ c, t.head? = some c → nameChar c = false ∧ (s!!"([.?!").elem c = false) →
      Parts q ('$' :: (n ++ (t' ++ t))) (.root none (.factor (.varUse n none) ts none) :: es)
  -- with a qualifier, which remains as an empty text if it is written after the braces
  | bracesQual {q : Option Char} {w x w' t : Str} {e : Expr} {a : Qual} {es : List Expr} : Blanks w → Written 15 x e →
      Blanks w' → (w = [] → x.head? ≠ some '{') → Parts q t es →
      Parts q ('{' :: (w ++ (x ++ (w' ++ ('}' :: (qualText (some a) ++ t)))))) (.root (some a) e :: .static [] :: es)
  | varQual {q : Option Char} {n t' t : Str} {ts : List Tail} {a : Qual} {es : List Expr} : Name n → Tails t' ts →
      Parts q t es →
      Parts q ('$' :: (n ++ (t' ++ (qualText (some a) ++ t)))) (.root none (.factor (.varUse n none) ts (some a)) :: es)
end

end
end Verif.Spec
