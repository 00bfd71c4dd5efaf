import Verif.Model.PyStr

/-
The parser generator: package `parsimonious` 0.8.1 (`setup.cfg:26`), `expressions.py`, as far as the
grammar of Hypertag uses it; and the regular expressions of Python's `re` that the grammar contains.
The package is not a part of /repo: its semantics is taken from its documentation and source.
-/

namespace Verif
open Py

/-- Regular expressions: a character class `chr`, a greedy repetition of a character class `many`
(`[..]*`), sequence, alternative, and the boundary `\b` after a word character (`bound w`, where `w` is
the class `\w`). In the grammar, repetition is applied to classes only. -/
inductive RE where
  | eps
  | chr (p : Char → Bool)
  | many (p : Char → Bool)
  | seq (a b : RE)
  | alt (a b : RE)
  | bound (w : Char → Bool)

/-- What may remain after a match of `[p]*`, in the order of backtracking: longest match first. -/
def manyRests (p : Char → Bool) : Str → List Str
  | [] => [[]]
  | c :: s => if p c then manyRests p s ++ [c :: s] else [c :: s]

/-- What may remain of `s` after a match of `r`, in the order in which `re` tries the matches. -/
def RE.rests : RE → Str → List Str
  | .eps, s => [s]
  | .chr _, [] => []
  | .chr p, c :: s => if p c then [s] else []
  | .many p, s => manyRests p s
  | .seq a b, s => (a.rests s).flatMap b.rests
  | .alt a b, s => a.rests s ++ b.rests s
  | .bound w, s => if (s.head?.map w).getD false then [] else [s]

/-- `re.match`: the first match, if any. -/
def RE.match? (r : RE) (s : Str) : Option Str := (r.rests s).head?

/-- `[p]+` -/
def RE.many1 (p : Char → Bool) : RE := .seq (.chr p) (.many p)

/-- `r?`, greedy. -/
def RE.opt (r : RE) : RE := .alt r .eps

/-- A literal text inside of a regular expression. -/
def RE.word : Str → RE
  | [] => .eps
  | c :: s => .seq (.chr (· == c)) (RE.word s)

/-- `r1|r2|..` -/
def RE.alts : List RE → RE
  | [] => .chr (fun _ => false)
  | [r] => r
  | r :: rs => .alt r (RE.alts rs)

/-- Expressions of the grammar: classes `Literal`, `Regex`, reference to a rule, `Sequence`, `OneOf`,
`Optional`, `ZeroOrMore`, `OneOrMore`, `Not` of parsimonious. `N` are the names of rules. -/
inductive Peg (N : Type) where
  | lit (s : Str)
  | rx (r : RE)
  | ref (n : N)
  | seq (ps : List (Peg N))
  | alt (ps : List (Peg N))
  | opt (p : Peg N)
  | star (p : Peg N)
  | plus (p : Peg N)
  | not (p : Peg N)

/-- A node of the syntax tree, `parsimonious.nodes.Node`: `expr_name` (`none` for an unnamed
expression), `text` and `children`. The attributes `start` and `end` are not stored: they follow from
the texts, as `C66_lossless` shows. -/
inductive PTree (N : Type) where
  | node (name : Option N) (text : Str) (children : List (PTree N))

namespace PTree
variable {N : Type}
/-- `node.text` -/
def text : PTree N → Str
  | .node _ t _ => t
/-- `node.expr_name` -/
def name : PTree N → Option N
  | .node n _ _ => n
/-- `node.children` -/
def children : PTree N → List (PTree N)
  | .node _ _ cs => cs
/-- The node of a rule is the node of its expression, with the name of the rule. -/
def rename (n : N) : PTree N → PTree N
  | .node _ t cs => .node (some n) t cs
end PTree

/-- Outcome of `match`: `None`, or a result and the remaining text; `timeout` if the fuel of the model
ran out (`C65_terminates`: this does not happen). -/
inductive PRes (α : Type) where
  | fail
  | ok (a : α) (rest : Str)
  | timeout
  deriving DecidableEq

/-- Apply a function to the result. -/
def PRes.map {α β : Type} (f : α → β) : PRes α → PRes β
  | .fail => .fail
  | .ok a r => .ok (f a) r
  | .timeout => .timeout

/-- `fulltext[start:end]` -/
def consumed (s rest : Str) : Str := s.take (s.length - rest.length)

section
variable {N : Type}

/-- An unnamed node. -/
def anon (s rest : Str) (cs : List (PTree N)) : PTree N := .node none (consumed s rest) cs

/-- `Literal._uncached_match`. -/
def runLit (l s : Str) : PRes (PTree N) :=
  if l.isPrefixOf s then .ok (anon s (s.drop l.length) []) (s.drop l.length) else .fail

/-- `Regex._uncached_match`. -/
def runRx (r : RE) (s : Str) : PRes (PTree N) :=
  match r.match? s with
  | some rest => .ok (anon s rest []) rest
  | none => .fail

/-- The node of a sequence or a repetition. -/
def wrapMany (s : Str) : PRes (List (PTree N)) → PRes (PTree N)
  | .fail => .fail
  | .ok cs rest => .ok (anon s rest cs) rest
  | .timeout => .timeout

/-- The node of `OneOf`. -/
def wrapOne (s : Str) : PRes (PTree N) → PRes (PTree N)
  | .fail => .fail
  | .ok c rest => .ok (anon s rest [c]) rest
  | .timeout => .timeout

/-- `Optional._uncached_match`. -/
def wrapOpt (s : Str) : PRes (PTree N) → PRes (PTree N)
  | .fail => .ok (anon s s []) s
  | .ok c rest => .ok (anon s rest [c]) rest
  | .timeout => .timeout

/-- `Not._uncached_match`. -/
def wrapNot (s : Str) : PRes (PTree N) → PRes (PTree N)
  | .fail => .ok (anon s s []) s
  | .ok _ _ => .fail
  | .timeout => .timeout

mutual
/-- `expr.match_core(text, pos)`. The argument `s` is the text from `pos` on. The packrat cache, which
does not influence the result, is left out, as is the limit of recursion depth of Python. -/
def run (G : N → Peg N) : Nat → Peg N → Str → PRes (PTree N)
  | 0, _, _ => .timeout
  | _ + 1, .lit l, s => runLit l s
  | _ + 1, .rx r, s => runRx r s
  | f + 1, .ref n, s => (run G f (G n) s).map (PTree.rename n)
  | f + 1, .seq ps, s => wrapMany s (runSeq G f ps s)
  | f + 1, .alt ps, s => wrapOne s (runAlt G f ps s)
  | f + 1, .opt p, s => wrapOpt s (run G f p s)
  | f + 1, .star p, s => wrapMany s (runStar G f p s)
  | f + 1, .plus p, s => wrapMany s (runPlus G f p s)
  | f + 1, .not p, s => wrapNot s (run G f p s)
/-- `Sequence._uncached_match`: all members in turn. -/
def runSeq (G : N → Peg N) : Nat → List (Peg N) → Str → PRes (List (PTree N))
  | 0, _, _ => .timeout
  | _ + 1, [], s => .ok [] s
  | f + 1, p :: ps, s =>
    match run G f p s with
    | .ok c rest => (runSeq G f ps rest).map (c :: ·)
    | .fail => .fail
    | .timeout => .timeout
/-- `OneOf._uncached_match`: the first member that matches. -/
def runAlt (G : N → Peg N) : Nat → List (Peg N) → Str → PRes (PTree N)
  | 0, _, _ => .timeout
  | _ + 1, [], _ => .fail
  | f + 1, p :: ps, s =>
    match run G f p s with
    | .ok c rest => .ok c rest
    | .fail => runAlt G f ps s
    | .timeout => .timeout
/-- `ZeroOrMore._uncached_match`: stops at a failure or at an empty match, which is dropped. -/
def runStar (G : N → Peg N) : Nat → Peg N → Str → PRes (List (PTree N))
  | 0, _, _ => .timeout
  | f + 1, p, s =>
    match run G f p s with
    | .ok c rest => if rest.length = s.length then .ok [] s else (runStar G f p rest).map (c :: ·)
    | .fail => .ok [] s
    | .timeout => .timeout
/-- `OneOrMore._uncached_match`: an empty match ends the loop, but is kept. -/
def runPlus (G : N → Peg N) : Nat → Peg N → Str → PRes (List (PTree N))
  | 0, _, _ => .timeout
  | f + 1, p, s =>
    match run G f p s with
    | .ok c rest =>
      if rest.length = s.length then .ok [c] s else (runMore G f p rest).map (c :: ·)
    | .fail => .fail
    | .timeout => .timeout
/-- The further rounds of the loop of `OneOrMore._uncached_match`. -/
def runMore (G : N → Peg N) : Nat → Peg N → Str → PRes (List (PTree N))
  | 0, _, _ => .timeout
  | f + 1, p, s =>
    match run G f p s with
    | .ok c rest =>
      if rest.length = s.length then .ok [c] s else (runMore G f p rest).map (c :: ·)
    | .fail => .ok [] s
    | .timeout => .timeout
end

end
end Verif
