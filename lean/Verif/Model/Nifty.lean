import Verif.Model.PyStr
import Verif.Model.Dict

/-
General utilities of `src/hypertag/nifty/util.py`: sequences (210-314), dictionaries (336-466),
comparison operators (486-497), file names (1096-1167) and the context of `Logger` (1349-1379).

Simplifications: iterables are finite lists; elements that Python hashes have decidable equality;
callbacks (`cut_test`, `test`, `__lt__`) return and do not raise; that of `partition` may have a
state, the others may not. File names use `os.path.sep = '/'` and `os.path.extsep = '.'` (POSIX).
-/

namespace Verif
namespace Nifty

/-! ## Sequences -/

section
variable {α : Type}

/-- The generator expression of `duplicates`: the elements met again, in order
(nifty/util.py:219-221). -/
def againLoop [DecidableEq α] : List α → List α → List α
  | _, [] => []
  | seen, x :: xs => if x ∈ seen then x :: againLoop seen xs else againLoop (x :: seen) xs

/-- `set.add`. -/
def setAdd [DecidableEq α] (s : List α) (x : α) : List α := if x ∈ s then s else s ++ [x]

/-- `duplicates(seq)`, nifty/util.py:217-221; a set is a list without repetitions. -/
def duplicates [DecidableEq α] (seq : List α) : List α := (againLoop [] seq).foldl setAdd []

/-- `duplicate(seq)`, nifty/util.py:223-226. Which element `set.pop()` takes is not specified by
Python: here the first one. -/
def duplicate [DecidableEq α] (seq : List α) : Option α :=
  if duplicates seq = [] then none else (duplicates seq).head?

/-- A value that `flatten` may meet: an iterable other than a string, or anything else. -/
inductive Item (α : Type)
  | atom (a : α)
  | seq (xs : List (Item α))

mutual
/-- The loop of `flatten`, nifty/util.py:239-242, over the elements of `seq`; a nested iterable
becomes a recursive call with one argument, for which `seq` is that argument (237). -/
def Item.flat : Item α → List α
  | .atom a => [a]
  | .seq xs => Item.flats xs
/-- One pass of the loop over a list of elements. -/
def Item.flats : List (Item α) → List α
  | [] => []
  | x :: xs => x.flat ++ Item.flats xs
end

/-- `flatten(*seq)`, nifty/util.py:228-243; `none` is the `TypeError` of iterating over a single
argument that is not iterable.
Simplification: a single argument that is a string (of which `flatten` lists the characters) is not a
case of the model. -/
def flatten : List (Item α) → Option (List α)
  | [] => some []
  | [.atom _] => none
  | [.seq xs] => some (Item.flats xs)
  | xs => some (Item.flats xs)

/-- The state of the loop of `split_where`: the pieces made so far, each with the arguments
`start`, `stop` given to `key_func`; `prev`; `start`; `stop`. -/
structure Cutting (α : Type) where
  result : List (List α × Nat × Nat)
  prev : Option α
  start : Nat
  stop : Int

/-- `cut_test(stop, prev, curr)` behind `stop >= 1 and`, nifty/util.py:267. -/
def cutHere (cut : Nat → α → α → Bool) (pos : Nat) (prev : Option α) (curr : α) : Bool :=
  match prev with
  | some p => decide (1 ≤ pos) && cut pos p curr
  | none => false

/-- `seq[start:stop]` of Python for `0 <= start <= stop`. -/
def pySlice (seq : List α) (start stop : Nat) : List α := (seq.take stop).drop start

/-- One pass of the loop of `split_where`, nifty/util.py:266-272. -/
def cutStep (seq : List α) (cut : Nat → α → α → Bool) (pos : Nat) (curr : α) (c : Cutting α) :
    Cutting α :=
  if cutHere cut pos c.prev curr then
    { result := c.result ++ [(pySlice seq c.start pos, c.start, pos)]
      prev := some curr, start := pos, stop := pos }
  else { c with prev := some curr, stop := pos }

/-- The loop of `split_where` from the position `pos` on. -/
def cutLoop (seq : List α) (cut : Nat → α → α → Bool) : Nat → List α → Cutting α → Cutting α
  | _, [], c => c
  | pos, x :: xs, c => cutLoop seq cut (pos + 1) xs (cutStep seq cut pos x c)

/-- `split_where(seq, cut_test, key_func)`, nifty/util.py:246-282, with the arguments of `key_func`
for every piece. -/
def splitRanges (seq : List α) (cut : Nat → α → α → Bool) : List (List α × Nat × Nat) :=
  let c := cutLoop seq cut 0 seq ⟨[], none, 0, -1⟩
  if c.stop = -1 then []
  else c.result ++ [(seq.drop c.start, c.start, c.stop.toNat)]

/-- `split_where(seq, cut_test)`, nifty/util.py:246-282. -/
def splitWhere (seq : List α) (cut : Nat → α → α → Bool) : List (List α) :=
  (splitRanges seq cut).map Prod.fst

/-- The loop of `batch`, nifty/util.py:287-293; the second argument is the current batch. -/
def batchLoop (size : Nat) : List α → List α → List (List α)
  | [], cur => if cur = [] then [] else [cur]
  | x :: xs, cur =>
    if size ≤ cur.length then cur :: batchLoop size xs [x] else batchLoop size xs (cur ++ [x])

/-- `batch(sequence, size)`, nifty/util.py:284-293; `none` is the failing `assert`. -/
def batch (seq : List α) (size : Nat) : Option (List (List α)) :=
  if 1 ≤ size then some (batchLoop size seq []) else none

/-- `chain(iterables)`, nifty/util.py:295-299. -/
def chain : List (List α) → List α
  | [] => []
  | xs :: xss => xs ++ chain xss

/-- The loop of `partition`, nifty/util.py:309-311. A call of `test` takes and leaves a state `S`
(anything that the callback can see or change). -/
def partitionLoop {S : Type} (test : S → α → Bool × S) :
    List α → S → List α → List α → (List α × List α) × S
  | [], s, pos, neg => ((pos, neg), s)
  | x :: xs, s, pos, neg =>
    if (test s x).1 then partitionLoop test xs (test s x).2 (pos ++ [x]) neg
    else partitionLoop test xs (test s x).2 pos (neg ++ [x])

/-- `partition(test, sequence)`, nifty/util.py:301-312. -/
def partition {S : Type} (test : S → α → Bool × S) (seq : List α) (s : S) :
    (List α × List α) × S :=
  partitionLoop test seq s [] []

end

/-! ## Dictionaries -/

section
variable {K V : Type} [DecidableEq K]

/-- `((k, d[k]) for k in keys if k in d)`, nifty/util.py:374. -/
def pickKeys (d : Dict K V) : List K → List (K × V)
  | [] => []
  | k :: ks =>
    match d.get? k with
    | some v => (k, v) :: pickKeys d ks
    | none => pickKeys d ks

/-- `((k, d[k]) for k in keys)`, nifty/util.py:372; `none` is `KeyError`. -/
def pickStrict (d : Dict K V) : List K → Option (List (K × V))
  | [] => some []
  | k :: ks =>
    match d.get? k with
    | some v => (pickStrict d ks).map ((k, v) :: ·)
    | none => none

/-- `subdict(d, keys)` with `strict = default = False`, nifty/util.py:369-375. -/
def subdict (d : Dict K V) (keys : List K) : Dict K V :=
  if keys.length ≤ d.length then Dict.update [] (pickKeys d keys)
  else Dict.update [] (d.filter fun item => decide (item.1 ∈ keys))

/-- `subdict(d, keys, strict = True)`, nifty/util.py:372. -/
def subdictStrict (d : Dict K V) (keys : List K) : Option (Dict K V) :=
  (pickStrict d keys).map (Dict.update [])

/-- `splitkeys(d)`, nifty/util.py:377-385; `words` is `str.split`. -/
def splitkeysLoop (words : K → List K) : Dict K V → Dict K V → Dict K V
  | [], d2 => d2
  | (key, val) :: d, d2 => splitkeysLoop words d ((words key).foldl (fun acc k => acc.set k val) d2)

/-- `splitkeys(d)`, nifty/util.py:377-385. -/
def splitkeys (words : K → List K) (d : Dict K V) : Dict K V := splitkeysLoop words d []

/-- `d.setdefault(k, default)`. -/
def setdefault (d : Dict K (Option V)) (k : K) (default : Option V) : Dict K (Option V) :=
  match d.get? k with
  | some _ => d
  | none => d.set k default

/-- One pass of `setdefaults`, nifty/util.py:457-458; values are `none` for `None`. -/
def setdefaultStep (default : Option V) (d : Dict K (Option V)) (k : K) : Dict K (Option V) :=
  let d' := setdefault d k default
  match d'.get? k with
  | some none => d'.set k default
  | _ => d'

/-- `setdefaults(d, keys, default)`, nifty/util.py:451-459. -/
def setdefaults (d : Dict K (Option V)) (keys : List K) (default : Option V) :
    Dict K (Option V) :=
  keys.foldl (setdefaultStep default) d

/-! ## The context of a logger -/

/-- The attributes of `Logger` that `push` and `pop` use, nifty/util.py:1362-1364. An absent key of
the `defaultdict` and an empty stack are not distinguished. The top of a stack comes first. -/
structure Logger (K V : Type) where
  context : Dict K V
  stacks : K → List V

/-- `Logger.__init__(**ctx)`, nifty/util.py:1362-1364 (`ctx` already with `level`). -/
def Logger.new (ctx : Dict K V) : Logger K V := ⟨ctx, fun _ => []⟩

/-- `self.stacks[key] = st`. -/
def Logger.setStack (l : Logger K V) (key : K) (st : List V) : K → List V :=
  fun k => if k = key then st else l.stacks k

/-- `log[key] = val`, nifty/util.py:1367. -/
def Logger.setitem (l : Logger K V) (key : K) (val : V) : Logger K V :=
  { l with context := l.context.set key val }

/-- `del log[key]`, nifty/util.py:1369; `none` is `KeyError`. -/
def Logger.delitem (l : Logger K V) (key : K) : Option (Logger K V) :=
  (l.context.del key).map fun c => { l with context := c }

/-- `log.push(key, val)`, nifty/util.py:1371-1374. -/
def Logger.push (l : Logger K V) (key : K) (val : V) : Logger K V :=
  match l.context.get? key with
  | some old => ⟨l.context.set key val, l.setStack key (old :: l.stacks key)⟩
  | none => ⟨l.context.set key val, l.stacks⟩

/-- `log.pop(key)`, nifty/util.py:1376-1379; `none` is `KeyError`. -/
def Logger.pop (l : Logger K V) (key : K) : Option (Logger K V) :=
  match l.stacks key with
  | old :: rest => some ⟨l.context.set key old, l.setStack key rest⟩
  | [] => l.delitem key

end

/-! ## Comparison operators -/

section
variable {α : Type} (lt : α → α → Bool)

/-- `ComparableMixin.__eq__`, nifty/util.py:488-489. -/
def cmpEq (a b : α) : Bool := !lt a b && !lt b a
/-- `ComparableMixin.__ne__`, nifty/util.py:490-491. -/
def cmpNe (a b : α) : Bool := lt a b || lt b a
/-- `ComparableMixin.__gt__`, nifty/util.py:492-493. -/
def cmpGt (a b : α) : Bool := lt b a
/-- `ComparableMixin.__ge__`, nifty/util.py:494-495. -/
def cmpGe (a b : α) : Bool := !lt a b
/-- `ComparableMixin.__le__`, nifty/util.py:496-497. -/
def cmpLe (a b : α) : Bool := !lt b a

end

/-! ## File names -/

/-- `s.rsplit(sep, 1)[-1]`: what follows the last `sep`. -/
def afterLast (sep : Char) (s : Str) : Str := (s.reverse.takeWhile (· != sep)).reverse

/-- `s[:s.rindex(c)]`, and `none` where `c` is not in `s`. -/
def beforeLast (c : Char) (s : Str) : Option Str :=
  if c ∈ s then some ((s.reverse.dropWhile (· != c)).drop 1).reverse else none

/-- `dropext(filename)`, nifty/util.py:1101-1109. -/
def dropext (filename : Str) : Str :=
  match beforeLast '.' filename with
  | none => filename
  | some front => if '/' ∈ filename.drop front.length then filename else front

/-- `dropexts(filename)`, nifty/util.py:1111-1122. -/
def dropexts (filename : Str) : Str :=
  let name := afterLast '/' filename
  if '.' ∈ name then
    filename.take (filename.length - name.length + (name.takeWhile (· != '.')).length)
  else filename

/-- `setext(filename, ext)`, nifty/util.py:1124-1130. -/
def setext (filename : Str) (ext : Option Str) : Str :=
  match ext with
  | some e => dropext filename ++ '.' :: e
  | none => dropext filename ++ []

/-- `os.path.splitext(p)[1]` of POSIX (CPython `genericpath._splitext`): from the last dot after
the last slash on, unless only dots stand between that slash and it. -/
def splitext (p : Str) : Str :=
  let name := afterLast '/' p
  match beforeLast '.' name with
  | none => []
  | some front => if front.all (· == '.') then [] else name.drop front.length

/-- `getext(filename)`, nifty/util.py:1096-1099. -/
def getext (filename : Str) : Str :=
  if splitext filename = [] then splitext filename else (splitext filename).drop 1

/-- `normdir(folder)` with `full = False`, nifty/util.py:1163-1167. -/
def normdir (folder : Str) : Str :=
  if folder.getLast? = some '/' then folder else folder ++ ['/']

end Nifty
end Verif
