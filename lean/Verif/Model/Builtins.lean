import Verif.Model.Text

/-
Built-in functions and tags: `src/hypertag/std/builtins.py`; `unique` of `nifty/util.py` 210-215.
-/

namespace Verif
open Py

/-- `_re_dedent.sub('', text)` with `_re_dedent = re.compile(r'(?m)^\s+')`, builtins.py:15,33.
`atStart` tells that the scan is at a position where `^` matches (start of the text or just after a
newline that was not itself removed) or inside a match of `\s+`, which is removed character by
character. -/
def dedentScan : Bool → Str → Str
  | _, [] => []
  | true, c :: cs => if isSpace c then dedentScan true cs else c :: dedentScan false cs
  | false, c :: cs => c :: dedentScan (c == '\n') cs

/-- `dedent(text, full)`, builtins.py:26-34. -/
def dedent (text : Str) (full : Bool) : Str :=
  if full then dedentScan true text else delIndent text

/-- `unique(seq)` of nifty/util.py:210-215; `seen` is the set of elements met so far. -/
def uniqueList {α} [DecidableEq α] : List α → List α → List α
  | _, [] => []
  | seen, x :: xs => if x ∈ seen then uniqueList seen xs else x :: uniqueList (x :: seen) xs

/-- The list of lines that `unique` makes distinct, builtins.py:45-46. -/
def uniqueInput (text : Str) (doStrip : Bool) : List Str :=
  let lines := splitlines text
  if doStrip then (lines.map strip).filter (fun l => !l.isEmpty) else lines

/-- `unique(text, strip)`, builtins.py:38-48. -/
def unique (text : Str) (doStrip : Bool) : Str :=
  join ['\n'] (uniqueList [] (uniqueInput text doStrip))

/-- `_re_merge.sub(' ', text)` with `_re_merge = re.compile(r'\s+')`, builtins.py:16,56.
`inRun` tells that the scan is inside a match, which has already been replaced by a space. -/
def mergeScan : Bool → Str → Str
  | _, [] => []
  | inRun, c :: cs =>
    if isSpace c then (if inRun then mergeScan true cs else ' ' :: mergeScan true cs)
    else c :: mergeScan false cs

/-- `merge(text)`, builtins.py:51-56. -/
def merge (text : Str) : Str := strip (mergeScan false text)

/-- `inline(text)`, builtins.py:60-66. -/
def inline (text : Str) : Str := replace text ['\n'] (s!!"&#10;")

/-- State of an iterator `itertools.cycle(seq)`: the saved elements and those still to be yielded in
the current round. -/
structure CycleIter (α : Type) where
  saved : List α
  rest : List α

/-- `next(it)`; `none` is `StopIteration`, which happens iff the iterable was empty. -/
def CycleIter.next {α} (it : CycleIter α) : Option (α × CycleIter α) :=
  match it.rest with
  | x :: xs => some (x, { it with rest := xs })
  | [] =>
    match it.saved with
    | x :: xs => some (x, { it with rest := xs })
    | [] => none

/-- One step of `zip(*cycles)`: `next` on each iterator in turn. -/
def zipNext {α} : List (CycleIter α) → Option (List α × List (CycleIter α))
  | [] => some ([], [])
  | it :: its =>
    match it.next with
    | none => none
    | some (x, it') =>
      match zipNext its with
      | none => none
      | some (xs, its') => some (x :: xs, it' :: its')

/-- The first `n` items of `zip(*cycles)`, as `itertools.islice(.., n)` takes them. -/
def isliceZip {α} : Nat → List (CycleIter α) → List (List α)
  | 0, _ => []
  | n + 1, its =>
    match zipNext its with
    | none => []
    | some (xs, its') => xs :: isliceZip n its'

/-- Values of the argument `stop` of `cycle`. -/
inductive Stop where
  | first
  | longest
  | never
  deriving DecidableEq, Repr

/-- `length` in `cycle`, builtins.py:98-105; `none` means unlimited. -/
def cycleLength {α} (stop : Stop) (seqs : List (List α)) : Option Nat :=
  match stop with
  | .first => some ((seqs.headD []).length)
  | .longest => some ((seqs.map List.length).foldl max 0)
  | .never => none

/-- How many of the first `n` items an `islice` with the given bound (`none`: no bound) lets pass. -/
def isliceLimit (n : Nat) : Option Nat → Nat
  | some len => min len n
  | none => n

/-- `cycle(*sequences, stop)`, builtins.py:81-109: the first `n` items that the returned iterator
yields. (Iterables are modelled by the lists of their elements.) -/
def cycleTake {α} (stop : Stop) (seqs : List (List α)) (n : Nat) : List (List α) :=
  if seqs = [] then []
  else
    isliceZip (isliceLimit n (cycleLength stop seqs)) (seqs.map (fun s => { saved := s, rest := s }))

/-- Loop of `changes(seq, first)`, builtins.py:111-124. `ne` is Python's `!=` on the elements;
`prev = none` before the first element. -/
def changesLoop {α} (ne : α → α → Bool) (first : Bool) : Option α → List α → List (α × Bool)
  | _, [] => []
  | none, v :: vs => (v, first) :: changesLoop ne first (some v) vs
  | some p, v :: vs => (v, ne v p) :: changesLoop ne first (some v) vs

/-- `changes(seq, first)`, builtins.py:111-124. -/
def changes {α} (ne : α → α → Bool) (seq : List α) (first : Bool) : List (α × Bool) :=
  changesLoop ne first none seq

/-- `crop(s, length, end, killwords, maxdrop, leeway)`, builtins.py:127-151; `none` is a failed
`assert`. Integers are Python integers. -/
def crop (s : Str) (length : Int) (end_ : Str) (killwords : Bool) (maxdrop leeway : Int) :
    Option Str :=
  if ¬ (length ≥ end_.length) then none
  else if ¬ (leeway ≥ 0) then none
  else if (s.length : Int) ≤ length + leeway then some s
  else
    let maxlen := (length - end_.length).toNat       -- non-negative by the first assertion
    if killwords then some (s.take maxlen ++ end_)
    else
      let result := rsplitHead ' ' (s.take maxlen)
      let result := if (result.length : Int) < maxlen - maxdrop then s.take maxlen else result
      some (result ++ end_)

end Verif
