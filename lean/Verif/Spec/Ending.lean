import Verif.Model.Translate
import Verif.Spec.Blocks
import Verif.Spec.Policy

/-!
Scripts without `while` loops in which hypertags are not used in expressions, and Python code that does not make
iterators longer.
-/

namespace Verif.Spec
open Verif.Py

/-- What is known of Python objects. -/
structure Outside (P W : Type) where
  /-- objects that do not refer to nodes other than the first `n` ones, nor to hypertags -/
  obj : Nat → P → Prop
  /-- the same of the rest of the memory -/
  world : Nat → W → Prop
  /-- at most how many items an iterator will yet yield; `none` if it is not an iterator -/
  left : W → Verif.Val P → Option Nat

section
variable {P X W : Type} (O : Outside P W)

namespace Outside

/-- Values, when `n` nodes have been created, that contain no hypertags. -/
inductive Plain (n : Nat) : Verif.Val P → Prop
  | none : Plain n .none
  | bool (b) : Plain n (.bool b)
  | str (s) : Plain n (.str s)
  | py {p} : O.obj n p → Plain n (.py p)
  | dom {ns} : (∀ r ∈ ns, r < n) → Plain n (.dom ns)
  | node {r} : r < n → Plain n (.node r)
  | part {f args kw} : Plain n f → (∀ v ∈ args, Plain n v) → (∀ a ∈ kw, Plain n a.2) → Plain n (.part f args kw)

/-- Nodes contain older nodes only. -/
structure Memory (m : Mem P W) : Prop where
  nodes : ∀ r, r < m.next → ∀ q ∈ (m.nodes r).body, q < r
  world : O.world m.next m.world

/-- No iterator of `w` has become longer in `w'`. -/
def Later (w w' : W) : Prop := ∀ it k, O.left w it = some k → ∃ k', k' ≤ k ∧ O.left w' it = some k'

/-- Python code that calls no hypertags, makes no iterator longer and leaves the memory as it should be. -/
def Done {α : Type} (Q : Nat → α → Prop) (m : Mem P W) : Proc P X W α → Prop
  | .ret a m' => O.Memory m' ∧ m.next ≤ m'.next ∧ O.Later m.world m'.world ∧ Q m'.next a
  | .raise _ m' => O.Memory m' ∧ m.next ≤ m'.next ∧ O.Later m.world m'.world
  | .call _ _ _ => False

/-- Operations on values without hypertags, and their results. -/
inductive Op (ops : PyOps P X W) (n : Nat) : {α : Type} → (Nat → α → Prop) → PyM P X W α → Prop
  | truth {p} : O.obj n p → Op ops n (fun _ _ => True) (ops.truth p)
  | str {v} : O.Plain n v → Op ops n (fun _ _ => True) (ops.str v)
  | repr {v} : O.Plain n v → Op ops n (fun _ _ => True) (ops.repr v)
  | bin {op a b} : O.Plain n a → O.Plain n b → Op ops n O.Plain (ops.bin op a b)
  | neg {v} : O.Plain n v → Op ops n O.Plain (ops.neg v)
  | call {f as kw} : O.Plain n f → (∀ v ∈ as, O.Plain n v) → (∀ a ∈ kw, O.Plain n a.2) → Op ops n O.Plain (ops.call f as kw)
  | getitem {a b} : O.Plain n a → O.Plain n b → Op ops n O.Plain (ops.getitem a b)
  | slice {a bs} : O.Plain n a → (∀ v ∈ bs, O.Plain n v) → Op ops n O.Plain (ops.slice a bs)
  | getattr {a name} : O.Plain n a → Op ops n O.Plain (ops.getattr a name)
  | mkList {vs} : (∀ v ∈ vs, O.Plain n v) → Op ops n O.Plain (ops.mkList vs)
  | mkTuple {vs} : (∀ v ∈ vs, O.Plain n v) → Op ops n O.Plain (ops.mkTuple vs)
  | mkSet {vs} : (∀ v ∈ vs, O.Plain n v) → Op ops n O.Plain (ops.mkSet vs)
  | mkDict {vs} : (∀ v ∈ vs, O.Plain n v.1 ∧ O.Plain n v.2) → Op ops n O.Plain (ops.mkDict vs)
  | iter {v} : O.Plain n v → Op ops n O.Plain (ops.iter v)
  | next {v} : O.Plain n v → Op ops n (fun m o => ∀ v, o = some v → O.Plain m v) (ops.next v)
  | toList {v} : O.Plain n v → Op ops n (fun m vs => ∀ v ∈ vs, O.Plain m v) (ops.toList v)
  | flatten {p} : O.obj n p → Op ops n (fun m ns => ∀ r ∈ ns, r < m) (ops.flatten p)
  | escape {f s} : ops.escape = some f → Op ops n (fun _ _ => True) (f s)

/-- The operations end, and so do all iterators, as each item is one of those left. -/
structure Calm (ops : PyOps P X W) : Prop where
  run : ∀ {n : Nat} {α : Type} {Q : Nat → α → Prop} {c : PyM P X W α}, O.Op ops n Q c →
    ∀ m, O.Memory m → n ≤ m.next → O.Done Q m (c m)
  iter : ∀ {v m it m'}, O.Memory m → O.Plain m.next v → ops.iter v m = .ret it m' → ∃ k, O.left m'.world it = some k
  next : ∀ {it m v m' k}, O.Memory m → O.Plain m.next it → ops.next it m = .ret (some v) m' → O.left m.world it = some k →
    ∃ k', k' < k ∧ O.left m'.world it = some k'
  number : ∀ t, O.Plain 0 (ops.number t)
  obj_mono : ∀ {n m p}, n ≤ m → O.obj n p → O.obj m p
  world_mono : ∀ {n m w}, n ≤ m → O.world n w → O.world m w

end Outside

end

/-! ### Statements -/

def _root_.Verif.Line.untagged : Verif.Line → Prop
  | .verbat _ => True
  | .normal ps => Expr.tagsIfAll False ps
  | .markup ps => Expr.tagsIfAll False ps

def _root_.Verif.TextItem.untagged : TextItem → Prop
  | .line l => l.untagged
  | _ => True

/-- The attributes of a tag. -/
def _root_.Verif.TagExp.untagged : TagExp → Prop
  | .tag _ _ us ns => Expr.tagsIfAll False us ∧ ∀ n ∈ ns, n.2.tagsIf False
  | .null => True

section
variable {P : Type}

mutual
/-- There are no `while` loops, and hypertags are not used in expressions. -/
def _root_.Verif.Stmt.straight : Verif.Stmt P → Prop
  | .static _ => True
  | .indent _ => True
  | .dedent _ => True
  | .line l => l.untagged
  | .xblock _ _ b => b.straight
  | .text _ items => ∀ i ∈ items, i.untagged
  | .comment => True
  | .embed e => e.tagsIf False
  | .struct tags b => (∀ t ∈ tags, t.untagged) ∧ b.straight
  | .defn _ _ _ ba as b => (∀ a ∈ ba, Expr.tagsIfOpt False a.default) ∧ (∀ a ∈ as, Expr.tagsIfOpt False a.default) ∧ b.straight
  | .imports _ _ _ => True
  | .tryBlock bs => Stmt.straightAll bs
  | .ifBlock cs els => Stmt.straightClauses cs ∧ Stmt.straightOpt els
  | .elseClause b => Stmt.straightOpt b
  | .whileBlock _ _ _ => False
  | .forBlock _ e rest => e.tagsIf False ∧ Stmt.straightAll rest
  | .exprBlock e => e.tagsIf False
  | .assign _ _ e => e.tagsIf False
  | .body ss => Stmt.straightAll ss
  | .pass => True
def _root_.Verif.Stmt.straightAll : List (Verif.Stmt P) → Prop
  | [] => True
  | s :: ss => s.straight ∧ Stmt.straightAll ss
def _root_.Verif.Stmt.straightOpt : Option (Verif.Stmt P) → Prop
  | none => True
  | some s => s.straight
def _root_.Verif.Stmt.straightClause : Expr × Option (Verif.Stmt P) → Prop
  | (t, b) => t.tagsIf False ∧ Stmt.straightOpt b
def _root_.Verif.Stmt.straightClauses : List (Expr × Option (Verif.Stmt P)) → Prop
  | [] => True
  | c :: cs => Stmt.straightClause c ∧ Stmt.straightClauses cs
end

end
/-! ### The condition can be checked -/

mutual
def decTagsIf (c : Prop) [Decidable c] : ∀ e : Expr, Decidable (e.tagsIf c)
  | .root _ e =>
    haveI := decTagsIf c e
    decidable_of_iff (e.tagsIf c) (by simp only [Expr.tagsIf])
  | .tagUse _ _ =>
    decidable_of_iff (c) (by simp only [Expr.tagsIf])
  | .varUse _ _ =>
    decidable_of_iff (True) (by simp only [Expr.tagsIf])
  | .factor a t _ =>
    haveI := decTagsIf c a
    haveI := decTailsIf c t
    decidable_of_iff (a.tagsIf c ∧ Tail.tagsIfAll c t) (by simp only [Expr.tagsIf])
  | .chain _ a _ es =>
    haveI := decTagsIf c a
    haveI := decTagsIfAll c es
    decidable_of_iff (a.tagsIf c ∧ Expr.tagsIfAll c es) (by simp only [Expr.tagsIf])
  | .concat es =>
    haveI := decTagsIfAll c es
    decidable_of_iff (Expr.tagsIfAll c es) (by simp only [Expr.tagsIf])
  | .bits _ a es =>
    haveI := decTagsIf c a
    haveI := decTagsIfAll c es
    decidable_of_iff (a.tagsIf c ∧ Expr.tagsIfAll c es) (by simp only [Expr.tagsIf])
  | .pipeline a es =>
    haveI := decTagsIf c a
    haveI := decTagsIfAll c es
    decidable_of_iff (a.tagsIf c ∧ Expr.tagsIfAll c es) (by simp only [Expr.tagsIf])
  | .notTest _ e =>
    haveI := decTagsIf c e
    decidable_of_iff (e.tagsIf c) (by simp only [Expr.tagsIf])
  | .andTest a es =>
    haveI := decTagsIf c a
    haveI := decTagsIfAll c es
    decidable_of_iff (a.tagsIf c ∧ Expr.tagsIfAll c es) (by simp only [Expr.tagsIf])
  | .orTest a es =>
    haveI := decTagsIf c a
    haveI := decTagsIfAll c es
    decidable_of_iff (a.tagsIf c ∧ Expr.tagsIfAll c es) (by simp only [Expr.tagsIf])
  | .ifElse x t y =>
    haveI := decTagsIf c x
    haveI := decTagsIf c t
    haveI := decTagsIfOpt c y
    decidable_of_iff (x.tagsIf c ∧ t.tagsIf c ∧ Expr.tagsIfOpt c y) (by simp only [Expr.tagsIf])
  | .list es =>
    haveI := decTagsIfAll c es
    decidable_of_iff (Expr.tagsIfAll c es) (by simp only [Expr.tagsIf])
  | .tuple es =>
    haveI := decTagsIfAll c es
    decidable_of_iff (Expr.tagsIfAll c es) (by simp only [Expr.tagsIf])
  | .set es =>
    haveI := decTagsIfAll c es
    decidable_of_iff (Expr.tagsIfAll c es) (by simp only [Expr.tagsIf])
  | .dict es =>
    haveI := decTagsIfAll c es
    decidable_of_iff (Expr.tagsIfAll c es) (by simp only [Expr.tagsIf])
  | .format es =>
    haveI := decTagsIfAll c es
    decidable_of_iff (Expr.tagsIfAll c es) (by simp only [Expr.tagsIf])
  | .static _ =>
    decidable_of_iff (True) (by simp only [Expr.tagsIf])
  | .strLit _ =>
    decidable_of_iff (True) (by simp only [Expr.tagsIf])
  | .number _ =>
    decidable_of_iff (True) (by simp only [Expr.tagsIf])
  | .boolean _ =>
    decidable_of_iff (True) (by simp only [Expr.tagsIf])
  | .noneLit =>
    decidable_of_iff (True) (by simp only [Expr.tagsIf])
  | .sliceNone =>
    decidable_of_iff (True) (by simp only [Expr.tagsIf])
def decTagsIfAll (c : Prop) [Decidable c] : ∀ x : List Expr, Decidable (Expr.tagsIfAll c x)
  | [] =>
    decidable_of_iff (True) (by simp only [Expr.tagsIfAll])
  | e :: es =>
    haveI := decTagsIf c e
    haveI := decTagsIfAll c es
    decidable_of_iff (e.tagsIf c ∧ Expr.tagsIfAll c es) (by simp only [Expr.tagsIfAll])
def decTagsIfOpt (c : Prop) [Decidable c] : ∀ x : Option Expr, Decidable (Expr.tagsIfOpt c x)
  | none =>
    decidable_of_iff (True) (by simp only [Expr.tagsIfOpt])
  | some e =>
    haveI := decTagsIf c e
    decidable_of_iff (e.tagsIf c) (by simp only [Expr.tagsIfOpt])
def decTailsIf (c : Prop) [Decidable c] : ∀ x : List Tail, Decidable (Tail.tagsIfAll c x)
  | [] =>
    decidable_of_iff (True) (by simp only [Tail.tagsIfAll])
  | e :: es =>
    haveI := decTailIf c e
    haveI := decTailsIf c es
    decidable_of_iff (e.tagsIf c ∧ Tail.tagsIfAll c es) (by simp only [Tail.tagsIfAll])
def decTailIf (c : Prop) [Decidable c] : ∀ x : Tail, Decidable (x.tagsIf c)
  | .call _ es =>
    haveI := decTagsIfAll c es
    decidable_of_iff (Expr.tagsIfAll c es) (by simp only [Tail.tagsIf])
  | .partialCall _ es =>
    haveI := decTagsIfAll c es
    decidable_of_iff (Expr.tagsIfAll c es) (by simp only [Tail.tagsIf])
  | .index es =>
    haveI := decTagsIfAll c es
    decidable_of_iff (Expr.tagsIfAll c es) (by simp only [Tail.tagsIf])
  | .member _ =>
    decidable_of_iff (True) (by simp only [Tail.tagsIf])
end

instance (c : Prop) [Decidable c] (e : Expr) : Decidable (e.tagsIf c) := decTagsIf c e
instance (c : Prop) [Decidable c] (es : List Expr) : Decidable (Expr.tagsIfAll c es) := decTagsIfAll c es
instance (c : Prop) [Decidable c] (o : Option Expr) : Decidable (Expr.tagsIfOpt c o) := decTagsIfOpt c o
instance (l : Verif.Line) : Decidable l.untagged := by cases l <;> simp only [Verif.Line.untagged] <;> infer_instance
instance (l : TextItem) : Decidable l.untagged := by cases l <;> simp only [Verif.TextItem.untagged] <;> infer_instance
instance (l : TagExp) : Decidable l.untagged := by cases l <;> simp only [Verif.TagExp.untagged] <;> infer_instance

section
variable {P : Type}

mutual
def decStraight : ∀ s : Verif.Stmt P, Decidable s.straight
  | .static _ =>
    decidable_of_iff (True) (by simp only [Verif.Stmt.straight])
  | .indent _ =>
    decidable_of_iff (True) (by simp only [Verif.Stmt.straight])
  | .dedent _ =>
    decidable_of_iff (True) (by simp only [Verif.Stmt.straight])
  | .comment =>
    decidable_of_iff (True) (by simp only [Verif.Stmt.straight])
  | .pass =>
    decidable_of_iff (True) (by simp only [Verif.Stmt.straight])
  | .imports _ _ _ =>
    decidable_of_iff (True) (by simp only [Verif.Stmt.straight])
  | .line l =>
    decidable_of_iff (l.untagged) (by simp only [Verif.Stmt.straight])
  | .xblock _ _ b =>
    haveI := decStraight b
    decidable_of_iff (b.straight) (by simp only [Verif.Stmt.straight])
  | .text _ items =>
    decidable_of_iff (∀ i ∈ items, i.untagged) (by simp only [Verif.Stmt.straight])
  | .embed e =>
    decidable_of_iff (e.tagsIf False) (by simp only [Verif.Stmt.straight])
  | .exprBlock e =>
    decidable_of_iff (e.tagsIf False) (by simp only [Verif.Stmt.straight])
  | .assign _ _ e =>
    decidable_of_iff (e.tagsIf False) (by simp only [Verif.Stmt.straight])
  | .struct tags b =>
    haveI := decStraight b
    decidable_of_iff ((∀ t ∈ tags, t.untagged) ∧ b.straight) (by simp only [Verif.Stmt.straight])
  | .defn _ _ _ ba as b =>
    haveI := decStraight b
    decidable_of_iff ((∀ a ∈ ba.toList, Expr.tagsIfOpt False a.default) ∧ (∀ a ∈ as, Expr.tagsIfOpt False a.default) ∧ b.straight)
      (by simp only [Verif.Stmt.straight, Option.mem_toList, Option.mem_def])
  | .tryBlock bs =>
    haveI := decStraightAll bs
    decidable_of_iff (Stmt.straightAll bs) (by simp only [Verif.Stmt.straight])
  | .ifBlock cs els =>
    haveI := decStraightClauses cs
    haveI := decStraightOpt els
    decidable_of_iff (Stmt.straightClauses cs ∧ Stmt.straightOpt els) (by simp only [Verif.Stmt.straight])
  | .elseClause b =>
    haveI := decStraightOpt b
    decidable_of_iff (Stmt.straightOpt b) (by simp only [Verif.Stmt.straight])
  | .whileBlock _ _ _ => decidable_of_iff False (by simp only [Verif.Stmt.straight])
  | .forBlock _ e rest =>
    haveI := decStraightAll rest
    decidable_of_iff (e.tagsIf False ∧ Stmt.straightAll rest) (by simp only [Verif.Stmt.straight])
  | .body ss =>
    haveI := decStraightAll ss
    decidable_of_iff (Stmt.straightAll ss) (by simp only [Verif.Stmt.straight])
def decStraightAll : ∀ ss : List (Verif.Stmt P), Decidable (Stmt.straightAll ss)
  | [] => decidable_of_iff True (by simp only [Stmt.straightAll])
  | s :: ss =>
    haveI := decStraight s
    haveI := decStraightAll ss
    decidable_of_iff (s.straight ∧ Stmt.straightAll ss) (by simp only [Stmt.straightAll])
def decStraightOpt : ∀ o : Option (Verif.Stmt P), Decidable (Stmt.straightOpt o)
  | none => decidable_of_iff True (by simp only [Stmt.straightOpt])
  | some s =>
    haveI := decStraight s
    decidable_of_iff s.straight (by simp only [Stmt.straightOpt])
def decStraightClause : ∀ c : Expr × Option (Verif.Stmt P), Decidable (Stmt.straightClause c)
  | (t, b) =>
    haveI := decStraightOpt b
    decidable_of_iff (t.tagsIf False ∧ Stmt.straightOpt b) (by simp only [Stmt.straightClause])
def decStraightClauses : ∀ cs : List (Expr × Option (Verif.Stmt P)), Decidable (Stmt.straightClauses cs)
  | [] => decidable_of_iff True (by simp only [Stmt.straightClauses])
  | c :: cs =>
    haveI := decStraightClause c
    haveI := decStraightClauses cs
    decidable_of_iff (Stmt.straightClause c ∧ Stmt.straightClauses cs) (by simp only [Stmt.straightClauses])
end

instance (ss : List (Verif.Stmt P)) : Decidable (Stmt.straightAll ss) := decStraightAll ss

end

end Verif.Spec
