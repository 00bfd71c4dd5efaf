import Verif.Lemmas.DomAlter
import Verif.Lemmas.DomSkip

/-! Properties of DOM construction, traversal and selection (C34-C41). -/

namespace Verif
open Py

/-! ### C34: construction -/

/-- **C34.** `DOM(*items)` for arbitrarily nested items: with `ls` the leaves from left to right, it
raises TypeError iff some leaf is neither a node nor `None`; otherwise the DOM consists of the nodes
among the leaves, in order. -/
theorem C34_flatten {N : Type} (items : List (Item N)) :
    ∃ ls, Leaves items ls ∧
      (Leaf.other ∈ ls → domInit items = .error .type) ∧
      (Leaf.other ∉ ls → domInit items = .ok ((Leaf.nodes ls).map .node)) := by
  obtain ⟨ls, hl⟩ := leaves_total items
  have h := flatten_leaves hl
  refine ⟨ls, hl, ?_, ?_⟩
  · intro ho
    simp [domInit, h.2 ho]
  · intro ho
    simp [domInit, h.1 ho]

/-- The leaves are determined by the items. -/
theorem C34_leaves_unique {N : Type} {items : List (Item N)} {ls ls' : List (Leaf N)}
    (h : Leaves items ls) (h' : Leaves items ls') : ls = ls' := by
  induction h generalizing ls' with
  | nil => cases h'; rfl
  | node _ ih => cases h' with | node h => rw [ih h]
  | none _ ih => cases h' with | none h => rw [ih h]
  | other _ ih => cases h' with | other h => rw [ih h]
  | seq _ _ ih1 ih2 => cases h' with | seq h1 h2 => rw [ih1 h1, ih2 h2]

example : flatten [.seq [.node 1, .none, .seq [.node 2]], .node 3] = .ok [1, 2, 3] := by
  simp [flatten, flattenItem, bind, Except.bind, pure, Except.pure]
example : flatten [.node 1, .seq [.none, .other], .node 3] = .error .type := by
  simp [flatten, flattenItem, bind, Except.bind, pure, Except.pure]

/-! ### C35: traversal -/

section
variable {I : Type}

/-- **C35.** `dom.walk(skip, order)` yields the nodes at exactly those paths which have no skipped
ancestor-or-self, each path once, in document order: ancestors first in preorder, last in postorder
(see `PreLt`, `PostLt`). -/
theorem C35_walk (skip : Option (Tree I → Bool)) (order : Order) (dom : List (Tree I)) :
    ∃ ps, Listing (OrderLt order) (Visible (SkipProp skip) dom) ps ∧
      (walkNodes skip order dom).map some = ps.map (nodeAt dom) :=
  ⟨_, listing_pathsF skip order dom, walk_paths skip order dom⟩

/-- The list of paths in `C35_walk` has no repetition. -/
theorem C35_once {order : Order} {vis : Path → Prop} {ps : List Path}
    (h : Listing (OrderLt order) vis ps) : ps.Nodup := by
  refine h.sorted.imp ?_
  intro p q hpq he
  subst he
  cases order
  · exact PreLt.irrefl _ hpq
  · exact PostLt.irrefl _ hpq

/-- The order in `C35_walk`: an ancestor (a proper prefix) comes before its descendants in preorder
and after them in postorder; of two nodes in different subtrees of siblings, the one in the earlier
subtree comes first in both. -/
theorem C35_order (p r : Path) (i j : Nat) (q q' : Path) :
    (r ≠ [] → PreLt p (p ++ r) ∧ PostLt (p ++ r) p) ∧
    (i < j → PreLt (p ++ i :: q) (p ++ j :: q') ∧ PostLt (p ++ i :: q) (p ++ j :: q')) := by
  constructor
  · intro hr
    induction p with
    | nil =>
      cases r with
      | nil => simp at hr
      | cons k r => exact ⟨.up, .up⟩
    | cons k p ih => exact ⟨.down ih.1, .down ih.2⟩
  · intro hij
    induction p with
    | nil => exact ⟨.left hij, .left hij⟩
    | cons k p ih => exact ⟨.down ih.1, .down ih.2⟩

/-- Without `skip` every node of the DOM is visited. -/
theorem C35_all (dom : List (Tree I)) (p : Path) :
    Visible (SkipProp none) dom p ↔ ∃ t, nodeAt dom p = some t := by
  rw [visible_iff]
  have hs : ∀ t : Tree I, ¬ SkipProp none t := by intro t ⟨f, hf, _⟩; simp at hf
  have sub_prefix : ∀ (q : Path) (t u : Tree I), t.sub q = some u → VisT none t q := by
    intro q
    induction q with
    | nil => intro t u _; exact (visT_nil none t).mpr (hs t)
    | cons i q ih =>
      intro t u h
      simp only [Tree.sub] at h
      split at h
      · rename_i w hw
        exact (visT_cons none t i q).mpr ⟨hs t, w, hw, ih w u h⟩
      · simp at h
  constructor
  · rintro ⟨i, q, t, rfl, ht, hv⟩
    obtain ⟨u, hu, _⟩ := hv q (List.prefix_refl _)
    exact ⟨u, by simp [nodeAt, ht, hu]⟩
  · rintro ⟨u, hu⟩
    cases p with
    | nil => simp [nodeAt] at hu
    | cons i q =>
      simp only [nodeAt] at hu
      split at hu
      · rename_i t ht
        exact ⟨i, q, t, rfl, ht, sub_prefix q t u hu⟩
      · simp at hu

/-- A sample tree: `1(2(3) 4) 5`. -/
def sampleForest : List (Tree Nat) := [.mk 1 [.mk 2 [.mk 3 []], .mk 4 []], .mk 5 []]

example : (walkNodes none .preorder sampleForest).map Tree.info = [1, 2, 3, 4, 5] := by rfl
example : (walkNodes none .postorder sampleForest).map Tree.info = [3, 2, 4, 1, 5] := by rfl
example : (walkNodes (some fun t => t.info == 2) .preorder sampleForest).map Tree.info = [1, 4, 5] := by
  rfl
example : ∃ t, nodeAt sampleForest [0, 0, 0] = some t ∧ t.info = 3 := ⟨_, rfl, rfl⟩

/-! ### C41: drawing -/

/-- **C41.** `dom.tree(indent, step)` is the concatenation of one line per node of the DOM in
preorder; the line of a node is `indent`, `step` once for every ancestor, its heading and a newline. -/
theorem C41_tree (heading : I → Str) (step indent : Str) (dom : List (Tree I)) :
    ∃ ps, Listing PreLt (fun p => ∃ t, nodeAt dom p = some t) ps ∧
      treeNodes heading step indent dom = ps.flatMap (drawLine heading step indent dom) := by
  have hl := listing_pathsF none .preorder dom
  refine ⟨_, ⟨fun p => (hl.mem p).trans (C35_all dom p), hl.sorted⟩, ?_⟩
  rw [treeNodes_lines heading step indent 0 dom]
  apply flatMap_congr_mem
  intro p _
  rw [drawLineF, drawLine, nodeAtFrom_zero]
  cases nodeAt dom p <;> rfl

/-- If no heading contains a newline, the drawing has as many lines as there are nodes. -/
theorem C41_line_count (heading : I → Str) (step indent : Str) (dom : List (Tree I))
    (h1 : ∀ i, '\n' ∉ heading i) (h2 : '\n' ∉ step) (h3 : '\n' ∉ indent) :
    (treeNodes heading step indent dom).count '\n' = (walkNodes none .preorder dom).length := by
  have h4 : ∀ n, '\n' ∉ (List.replicate n step).flatten := by
    intro n hm
    simp only [List.mem_flatten, List.mem_replicate] at hm
    obtain ⟨l, ⟨_, rfl⟩, hm⟩ := hm
    exact h2 hm
  have hw := walk_paths none .preorder dom
  have hlen : (walkNodes none .preorder dom).length = (pathsF none .preorder 0 dom).length := by
    have := congrArg List.length hw
    simpa using this
  rw [hlen, treeNodes_lines heading step indent 0 dom]
  have hsome : ∀ p ∈ pathsF none .preorder 0 dom, ∃ t, nodeAtFrom 0 dom p = some t := by
    intro p hp
    rw [nodeAtFrom_zero]
    exact (C35_all dom p).mp (((listing_pathsF none .preorder dom).mem p).mp hp)
  generalize pathsF none .preorder 0 dom = ps at hsome
  induction ps with
  | nil => rfl
  | cons p ps ih =>
    obtain ⟨t, ht⟩ := hsome p (by simp)
    simp only [List.flatMap_cons, List.count_append, List.length_cons]
    rw [ih (fun q hq => hsome q (by simp [hq]))]
    simp only [drawLineF, ht, List.count_append, List.count_eq_zero_of_not_mem h3,
      List.count_eq_zero_of_not_mem (h4 _), List.count_eq_zero_of_not_mem (h1 _)]
    simp
    omega

example : treeNodes (fun n : Nat => Nat.toDigits 10 n) (s!!"  ") [] sampleForest =
    s!!"1\n  2\n    3\n  4\n5\n" := by decide
/-- C41. The heading of a node: name of the tag or class, unnamed attributes, named attributes, separated by blanks. -/
theorem C41_heading (cls : Str) (tag : Option Str) (attrs : List Str) (kw : List (Str × Str)) :
    nodeHeading cls tag attrs kw =
      List.intercalate [' '] ((tag.getD (['<'] ++ cls ++ ['>']) :: attrs) ++ kw.map (fun kv => kv.1 ++ '=' :: kv.2)) := by
  have key : ∀ (x : Str) (ws : List Str), List.intercalate [' '] (x :: ws) = x ++ ws.flatMap (fun w => ' ' :: w) := by
    intro x ws
    induction ws generalizing x with
    | nil => simp [List.intercalate]
    | cons w ws ih => simp [List.intercalate] at ih ⊢; exact ih w
  rw [List.cons_append, key, List.flatMap_append, List.flatMap_map]
  cases tag <;> simp [nodeHeading]
example : nodeHeading (s!!"Node") (some (s!!"p")) [s!!"x"] [(s!!"id", s!!"7")] = s!!"p x id=7" := by
  decide
example : nodeHeading (s!!"Text") none [] [] = s!!"<Text>" := by decide

/-! ### C40: transformation -/

/-- **C40 (partial).** What `alter` really computes: with `order='preorder'` the transform is applied
to a list of nodes *after* the recursive calls on the nodes (the documented behaviour of 'postorder'),
with `order='postorder'` (whenever it terminates) *before* them (the documented behaviour of
'preorder'). So the names of the orders are interchanged; see `C40_not_in_general`. -/
theorem C40_alter_swapped_partial (skip : Option (Tree I → Bool)) (f : Tree I → List (Tree I))
    (fuel : Nat) (dom us : List (Tree I)) :
    (domAlter skip f .preorder fuel dom = some us → BottomUp (SkipProp skip) f dom us) ∧
    (domAlter skip f .postorder fuel dom = some us → TopDown (SkipProp skip) f dom us) := by
  constructor
  · intro h
    simp only [domAlter, Option.some.injEq] at h
    subst h
    exact alterPreNodes_bottomUp skip f dom
  · intro h
    exact (alterPost_topDown skip f fuel).2.1 dom us h

/-- For transforms that only drop nodes depending on their data the order does not matter, so the
documented behaviour does hold: the subtrees rooted at the dropped nodes are removed. -/
theorem C40_drop_partial (P : I → Prop) (order : Order) (dom : List (Tree I)) :
    ∃ N, ∀ fuel, N ≤ fuel → domAlter none (dropIf P) order fuel dom = some (prune P dom) := by
  cases order with
  | preorder => exact ⟨0, fun _ _ => by simp [domAlter, dropPre_nodes]⟩
  | postorder =>
    cases dom with
    | nil =>
      refine ⟨2, ?_⟩
      intro fuel hf
      obtain ⟨n, rfl⟩ : ∃ m, fuel = m + 2 := ⟨fuel - 2, by omega⟩
      simp [domAlter, alterPostNodes, alterPostEach, prune]
    | cons t ts =>
      obtain ⟨N, hN⟩ := dropPost_body P (.mk t.info (t :: ts))
      exact ⟨N, fun n hn => hN n hn⟩

/-- Drop the nodes without children. -/
def dropChildless (t : Tree Nat) : List (Tree Nat) := if t.body.isEmpty then [] else [t]

/-- The documented orders are not the ones implemented. -/
theorem C40_not_in_general :
    (∃ (f : Tree Nat → List (Tree Nat)) (dom us : List (Tree Nat)) (fuel : Nat),
      domAlter none f .preorder fuel dom = some us ∧ ¬ TopDown (SkipProp none) f dom us) ∧
    (∃ (f : Tree Nat → List (Tree Nat)) (dom us : List (Tree Nat)) (fuel : Nat),
      domAlter none f .postorder fuel dom = some us ∧ ¬ BottomUp (SkipProp none) f dom us) := by
  refine ⟨⟨dropChildless, [.mk 0 [.mk 1 []]], [], 0, rfl, ?_⟩,
    ⟨dropChildless, [.mk 0 [.mk 1 []]], [.mk 0 []], 9, rfl, ?_⟩⟩
  · intro h
    cases h with
    | mk h =>
      simp only [dropChildless, List.flatMap_cons, Tree.body] at h
      simp at h
      cases h
  · intro h
    generalize hd : [Tree.mk 0 [Tree.mk 1 []]] = dom at h
    generalize hu : [Tree.mk 0 []] = us at h
    cases h with
    | mk h =>
      rename_i vs
      have : ∀ t ∈ vs.flatMap dropChildless, t.body ≠ [] := by
        intro t ht
        simp only [List.mem_flatMap, dropChildless] at ht
        obtain ⟨u, _, hu⟩ := ht
        split at hu
        · simp at hu
        · rename_i hne
          simp at hu
          subst hu
          simpa using hne
      exact this (.mk 0 []) (by rw [← hu]; simp) rfl

end

/-! ### C39: slicing -/

/-- **C39 is false:** `dom[a:b]` for a DOM of nodes is not a DOM of nodes; its only element is the
list of the selected nodes, for every DOM and every slice. -/
theorem C39_slice_not_in_general {N : Type} (nodes : List N) (a b : Option Int) :
    domSlice (nodes.map Item.node) a b ≠ (pySlice nodes a b).map Item.node ∧
    (domSlice (nodes.map Item.node) a b).length = 1 := by
  constructor
  · intro h
    simp only [domSlice, domInitLoose] at h
    cases hs : pySlice nodes a b with
    | nil => rw [hs] at h; simp at h
    | cons n ns => rw [hs] at h; simp at h
  · rfl

/-- Slicing commutes with wrapping. -/
theorem pySlice_map {α β} (f : α → β) (l : List α) (a b : Option Int) :
    pySlice (l.map f) a b = (pySlice l a b).map f := by
  simp [pySlice, List.map_drop, List.map_take]

/-- **C39 (partial).** Passing the slice to `DOM(...)` again (for example by using it as the body of a
node) gives the documented `DOM(dom.nodes[a:b])`: the selected nodes in order. -/
theorem C39_slice_partial {N : Type} (nodes : List N) (a b : Option Int) :
    domInit (domSlice (nodes.map Item.node) a b) = .ok ((pySlice nodes a b).map Item.node) ∧
    domInit [.seq (pySlice (nodes.map Item.node) a b)] =
      .ok ((pySlice nodes a b).map Item.node) := by
  have : flatten (domSlice (nodes.map Item.node) a b) = .ok (pySlice nodes a b) := by
    simp [domSlice, domInitLoose, flatten, flattenItem, pySlice_map, flatten_nodes, bind,
      Except.bind, pure, Except.pure]
  exact ⟨by simp [domInit, this], by
    have h2 : flatten [.seq (pySlice (nodes.map Item.node) a b)] = .ok (pySlice nodes a b) := this
    simp [domInit, h2]⟩

theorem zipIdx_window {α : Type} (l : List α) (k lo hi : Nat) :
    ((l.zipIdx k).filter (fun p => decide (lo ≤ p.2 ∧ p.2 < hi))).map Prod.fst = (l.take (hi - k)).drop (lo - k) := by
  induction l generalizing k with
  | nil => simp
  | cons x l ih =>
    rw [List.zipIdx_cons, List.filter_cons]
    have := ih (k + 1)
    by_cases h1 : lo ≤ k
    · by_cases h2 : k < hi
      · have e : hi - k = (hi - (k + 1)) + 1 := by omega
        have e' : lo - k = 0 := by omega
        have e'' : lo - (k + 1) = 0 := by omega
        rw [e'', List.drop_zero] at this
        simp only [h1, h2, and_self, decide_true, if_true, List.map_cons, e', List.drop_zero]
        rw [this, e, List.take_succ_cons]
      · have e : hi - k = 0 := by omega
        have e1 : hi - (k + 1) = 0 := by omega
        simp only [h2, and_false, decide_false, Bool.false_eq_true, if_false, this, e, e1]
        simp
    · have e : lo - k = (lo - (k + 1)) + 1 := by omega
      simp only [h1, false_and, decide_false, Bool.false_eq_true, if_false, this]
      rw [e]
      by_cases h2 : k < hi
      · have e2 : hi - k = (hi - (k + 1)) + 1 := by omega
        rw [e2, List.take_succ_cons, List.drop_succ_cons]
      · have e2 : hi - k = 0 := by omega
        have e1 : hi - (k + 1) = 0 := by omega
        simp [e2, e1]

open Classical in
/-- C39. The selected nodes are those from the first bound on and before the second one, in their order. -/
theorem C39_selected {α : Type} (l : List α) (a b : Option Int) :
    pySlice l a b = ((l.zipIdx 0).filter (fun p => decide (SliceFrom l.length p.2 a ∧ SliceTo l.length p.2 b))).map Prod.fst := by
  have h := zipIdx_window l 0 (sliceBound l.length 0 a) (sliceBound l.length l.length b)
  simp only [Nat.sub_zero] at h
  simp only [pySlice]
  rw [← h]
  congr 1
  apply List.filter_congr
  rintro ⟨x, i⟩ hp
  have hi : i < l.length := by
    have := List.mem_zipIdx hp
    omega
  simp only [decide_eq_decide]
  have e1 : sliceBound l.length 0 a ≤ i ↔ SliceFrom l.length i a := by
    cases a with
    | none => simp [sliceBound, SliceFrom]
    | some a =>
      simp only [sliceBound, SliceFrom]
      split <;> omega
  have e2 : i < sliceBound l.length l.length b ↔ SliceTo l.length i b := by
    cases b with
    | none => simp [sliceBound, SliceTo, hi]
    | some b =>
      simp only [sliceBound, SliceTo]
      split <;> omega
  rw [e1, e2]

example : pySlice [1, 2, 3, 4] (some 1) (some (-1)) = [2, 3] := by decide
example : pySlice [1, 2, 3, 4] (some (-10)) (some 2) = [1, 2] := by decide
example : pySlice [1, 2, 3, 4] none (some 9) = [1, 2, 3, 4] := by decide

/-! ### C36: selection -/

section
variable {V D : Type} (ne : V → V → Bool) (tag : TagArg) (attr : Option (Str × Option V))
  (attrs : Dict Str (Option V))

/-- **C36 (partial).** If no node of the DOM is untestable (has the right tag, while attributes are
asked for and it has no dict of attributes), then `select` returns exactly the matching nodes, each
once, in walk order. Missing: such nodes (in particular all nodes of text, when no tag is given) make
`select` fail although they simply do not match, see `C36_select_error` and `C36_not_in_general`. -/
theorem C36_select_partial (hn : (Dict.keys attrs).Nodup) (order : Order)
    (dom : List (Tree (SelInfo V D)))
    (h : ∀ p t, nodeAt dom p = some t → ¬ Untestable tag attr attrs t.info) :
    ∃ res ps, select ne dom tag attr attrs order = .ok res ∧
      Listing (OrderLt order)
        (fun p => ∃ t, nodeAt dom p = some t ∧ Matches ne tag attr attrs t.info) ps ∧
      res.map some = ps.map (nodeAt dom) := by
  classical
  have hw := walk_paths none order dom
  have hl := listing_pathsF none order dom
  refine ⟨_, (pathsF none order 0 dom).filter (fun p => ∃ t, nodeAt dom p = some t ∧
      Matches ne tag attr attrs t.info), selectLoop_ok ne tag attr attrs hn _ ?_, ⟨?_, ?_⟩, ?_⟩
  · intro t ht
    have : some t ∈ (walkNodes none order dom).map some := List.mem_map_of_mem ht
    rw [hw] at this
    simp only [List.mem_map] at this
    obtain ⟨p, _, hp⟩ := this
    exact h p t hp
  · intro p
    simp only [List.mem_filter, decide_eq_true_eq]
    constructor
    · exact fun hh => hh.2
    · intro hh
      refine ⟨?_, hh⟩
      obtain ⟨t, ht, _⟩ := hh
      rw [hl.mem p]
      exact (C35_all dom p).mpr ⟨t, ht⟩
  · exact hl.sorted.filter _
  · refine filter_paths _ _ _ _ _ hw ?_
    intro p t hp
    simp [hp]

/-- If some node is untestable, `select` raises TypeError. -/
theorem C36_select_error (hn : (Dict.keys attrs).Nodup) (order : Order)
    (dom : List (Tree (SelInfo V D)))
    (h : ∃ p t, nodeAt dom p = some t ∧ Untestable tag attr attrs t.info) :
    select ne dom tag attr attrs order = .error .type := by
  obtain ⟨p, t, hp, hu⟩ := h
  refine selectLoop_error ne tag attr attrs hn _ ⟨t, ?_, hu⟩
  have hw := walk_paths none order dom
  have hl := listing_pathsF none order dom
  have : some t ∈ (pathsF none order 0 dom).map (nodeAt dom) := by
    rw [← hp]
    exact List.mem_map_of_mem ((hl.mem p).mpr ((C35_all dom p).mpr ⟨t, hp⟩))
  rw [← hw] at this
  simpa using this

end

/-- Two nodes: an element with the attribute `id` and a text. -/
def samplePage : List (Tree (SelInfo Nat Unit)) :=
  [.mk ⟨some (1, s!!"p"), some [], some [(s!!"id", 7)], ()⟩ [.mk ⟨none, none, none, ()⟩ []]]

/-- **C36 in general is false:** a search by attribute fails as soon as the DOM contains text. -/
theorem C36_not_in_general :
    ∃ (dom : List (Tree (SelInfo Nat Unit))) (a : Str),
      (∃ t ∈ dom, Matches (fun x y => x != y) .none (some (a, none)) [] t.info) ∧
      select (fun x y => x != y) dom .none (some (a, none)) [] .preorder = .error .type := by
  refine ⟨samplePage, s!!"id", ⟨_, List.mem_cons_self, trivial, ?_⟩, ?_⟩
  · intro a v hr
    simp only [Required] at hr
    rcases hr with ⟨rfl, rfl⟩ | ⟨_, hr⟩
    · exact ⟨_, 7, rfl, by decide, by simp⟩
    · simp [Dict.get?] at hr
  · exact C36_select_error _ _ _ _ (by simp [Dict.keys]) _ _
      ⟨[0, 0], _, rfl, trivial, ⟨s!!"id", none, Or.inl ⟨rfl, rfl⟩⟩, rfl⟩

example : (select (fun x y : Nat => x != y) samplePage (.name (s!!"p")) (some (s!!"id", some 7)) []
    .preorder).map (fun l => l.length) = .ok 1 := by decide
example : (select (fun x y : Nat => x != y) samplePage (.name (s!!"p")) none [(s!!"id", some 8)]
    .preorder).map (fun l => l.length) = .ok 0 := by decide

/-! ### C37, C38: skip -/

section
variable {V D : Type}

theorem allF_iff {I : Type} (P : I → Prop) (ts : List (Tree I)) :
    AllF P ts ↔ ∀ p t, nodeAt ts p = some t → P t.info := by
  have key : ∀ n, (∀ t : Tree I, sizeOf t ≤ n → (AllT P t ↔ ∀ q u, t.sub q = some u → P u.info)) := by
    intro n
    induction n with
    | zero => intro t ht; obtain ⟨i, b⟩ := t; simp at ht
    | succ n ih =>
      intro t ht
      obtain ⟨i, b⟩ := t
      have hlist : ∀ l : List (Tree I), (AllF P l ↔ ∀ t ∈ l, AllT P t) := by
        intro l
        induction l with
        | nil => simp [AllF]
        | cons t l ihl => simp_all [AllF]
      simp only [Tree.mk.sizeOf_spec] at ht
      have hb : sizeOf b ≤ n := by have : 0 ≤ sizeOf i := Nat.zero_le _; omega
      simp only [AllT]
      rw [hlist b]
      constructor
      · rintro ⟨h1, h2⟩ q u hu
        cases q with
        | nil =>
          simp only [Tree.sub, Option.some.injEq] at hu
          subst hu
          exact h1
        | cons j q =>
          simp only [Tree.sub, Tree.body] at hu
          split at hu
          · rename_i w hw
            have hm := List.mem_of_getElem? hw
            have := List.sizeOf_lt_of_mem hm
            exact (ih w (by omega)).mp (h2 w hm) q u hu
          · simp at hu
      · intro h
        refine ⟨h [] _ rfl, ?_⟩
        intro w hm
        have := List.sizeOf_lt_of_mem hm
        refine (ih w (by omega)).mpr ?_
        intro q u hu
        obtain ⟨j, hj⟩ := List.getElem?_of_mem hm
        exact h (j :: q) u (by simp [Tree.sub, Tree.body, hj, hu])
  have hlist : AllF P ts ↔ ∀ t ∈ ts, AllT P t := by
    induction ts with
    | nil => simp [AllF]
    | cons t l ihl => simp_all [AllF]
  rw [hlist]
  constructor
  · intro h p t hp
    cases p with
    | nil => simp [nodeAt] at hp
    | cons j q =>
      simp only [nodeAt] at hp
      split at hp
      · rename_i w hw
        exact (key _ w (Nat.le_refl _)).mp (h w (List.mem_of_getElem? hw)) q t hp
      · simp at hp
  · intro h t ht
    refine (key _ t (Nat.le_refl _)).mpr ?_
    intro q u hu
    obtain ⟨j, hj⟩ := List.getElem?_of_mem ht
    exact h (j :: q) u (by simp [nodeAt, hj, hu])

variable (ne : V → V → Bool) (tag : TagArg) (attr : Option (Str × Option V))
  (attrs : Dict Str (Option V))

/-- **C37 (partial).** Let the DOM object at address `r` represent a finite forest none of whose nodes
is untestable. Then `skip`, given enough depth of recursion, returns a DOM that represents the forest
with exactly the subtrees rooted at matching nodes removed. Missing: as for C36, an untestable node
makes it fail, see `C37_skip_error` and `C37_not_in_general`. -/
theorem C37_skip_partial (hn : (Dict.keys attrs).Nodup) (ts : List (Tree (SelInfo V D)))
    (h : ∀ p t, nodeAt ts p = some t → ¬ Untestable tag attr attrs t.info) :
    ∃ N, ∀ fuel, N ≤ fuel → ∀ (hp : Heap V D) (r : Nat), RepDom hp ts r →
      ∃ d hp', heapSkip ne fuel r tag attr attrs hp = .ok (d, hp') ∧
        RepDom hp' (prune (Matches ne tag attr attrs) ts) d := by
  have hall : AllF (fun i => ¬ Untestable tag attr attrs i) ts := (allF_iff _ ts).mpr h
  obtain ⟨N1, h1⟩ := copyDom_rep (V := V) (D := D) ts
  obtain ⟨N2, h2⟩ := alterNodes_own ne tag attr attrs hn ts hall
  refine ⟨max N1 N2 + 1, ?_⟩
  intro n hnn hp r hr
  obtain ⟨n, rfl⟩ : ∃ m, n = m + 1 := ⟨n - 1, by omega⟩
  obtain ⟨d, hA, ns, cA, rfl, _, dA, oA⟩ := h1 (n + 1) (by omega) hp r hr
  obtain ⟨hB, cB, sB, oB⟩ := h2 n (by omega) hA _ _ ns oA
  have dB : hB[hp.length]? = some (.dom ns) := by rw [sB _ (by omega), dA]
  have hroots : ∀ t ∈ ts, ¬ Unt tag attr attrs t.info := by
    intro t ht
    obtain ⟨j, hj⟩ := List.getElem?_of_mem ht
    exact h [j] t (by simp [nodeAt, hj, Tree.sub])
  obtain ⟨hC, ns', cC, dC, sC, oC⟩ := replace_ok ne tag attr attrs hn (Nat.lt_succ_self _) ts ns dB oB
    hroots
  refine ⟨hp.length, hC, ?_, ns', dC, OwnNodes.rep _ _ oC⟩
  simp only [heapSkip, cA, alterDom, dA, cB, cC]

/-- If some node is untestable, `skip` raises TypeError. -/
theorem C37_skip_error (hn : (Dict.keys attrs).Nodup) (ts : List (Tree (SelInfo V D)))
    (h : ∃ p t, nodeAt ts p = some t ∧ Untestable tag attr attrs t.info) :
    ∃ N, ∀ fuel, N ≤ fuel → ∀ (hp : Heap V D) (r : Nat), RepDom hp ts r →
      heapSkip ne fuel r tag attr attrs hp = .error .type := by
  have hall : ¬ AllF (fun i => ¬ Untestable tag attr attrs i) ts := by
    intro hh
    obtain ⟨p, t, hp, hu⟩ := h
    exact (allF_iff _ ts).mp hh p t hp hu
  obtain ⟨N1, h1⟩ := copyDom_rep (V := V) (D := D) ts
  obtain ⟨N2, h2⟩ := alterDomList_err ne tag attr attrs hn ts (alterEach_err ne tag attr attrs hn ts) hall
  refine ⟨max N1 N2, ?_⟩
  intro n hnn hp r hr
  obtain ⟨d, hA, ns, cA, rfl, _, dA, oA⟩ := h1 n (by omega) hp r hr
  have := h2 n (by omega) hA _ _ hp.length ns (Nat.lt_succ_self _) dA oA
  simp only [heapSkip, cA, this]

mutual
theorem prune_walk_node {I : Type} (P : I → Bool) (order : Order) : (t : Tree I) → P t.info = false →
    (walkNode none order (.mk t.info (prune (fun i => P i = true) t.body))).map Tree.info =
      (walkNode (some fun t => P t.info) order t).map Tree.info
  | .mk i b => by
    intro hP
    have := prune_walk P order b
    simp only [Tree.info] at hP
    simp only [walkNode, skipped, Tree.info, Tree.body, hP, Bool.false_eq_true, if_false,
      List.map_append, this]
    cases order <;> simp [Tree.info]
/-- The nodes of the pruned forest, in either order, carry the data of the nodes without a removed
ancestor-or-self: `prune` agrees with `walk` with the same `skip` predicate (`C35_walk`). -/
theorem prune_walk {I : Type} (P : I → Bool) (order : Order) : (ts : List (Tree I)) →
    (walkNodes none order (prune (fun i => P i = true) ts)).map Tree.info =
      (walkNodes (some fun t => P t.info) order ts).map Tree.info
  | [] => by simp [prune, walkNodes]
  | .mk i b :: ts => by
    have h1 := prune_walk_node P order (.mk i b)
    have h2 := prune_walk P order ts
    by_cases hP : P i = true
    · simp [prune, hP, h2, walkNodes, walkNode, skipped, Tree.info]
    · have h1 := h1 (show P i = false by simpa using hP)
      change (walkNode none order (.mk i (prune (fun i => P i = true) b))).map Tree.info = _ at h1
      simp only [prune, hP, Bool.false_eq_true, if_false, walkNodes, List.map_append, h1, h2]
end

/-- The remaining nodes keep their order and their parents: the removal of subtrees, listed in
preorder or in postorder, is the walk that skips those subtrees. -/
theorem C37_remaining {I : Type} (P : I → Bool) (order : Order) (ts : List (Tree I)) :
    (walkNodes none order (prune (fun i => P i = true) ts)).map Tree.info =
      (walkNodes (some fun t => P t.info) order ts).map Tree.info := prune_walk P order ts

/-- **C38.** For every heap (objects may be shared or even form cycles) and every constraint: if
`skip` returns, then every object that existed before the call is unchanged, and no object reachable
from the result (nodes, DOMs, lists and dicts of attributes) existed before. -/
theorem C38_original_untouched (fuel r : Nat) (hp hp' : Heap V D) (d : Nat)
    (h : heapSkip ne fuel r tag attr attrs hp = .ok (d, hp')) :
    (∀ x, x < hp.length → hp'[x]? = hp[x]?) ∧ (∀ x, Reach hp' d x → hp.length ≤ x) := by
  simp only [heapSkip] at h
  split at h
  · simp at h
  · rename_i d1 h1 e1
    split at h
    · simp at h
    · rename_i h2 e2
      simp only [Except.ok.injEq, Prod.mk.injEq] at h
      obtain ⟨rfl, rfl⟩ := h
      obtain ⟨a1, a2, a3, a4⟩ := copyDom_ok fuel _ _ _ _ e1
      obtain ⟨b1, b2, b3⟩ := alterDom_ok ne _ fuel _ _ _ a1 a4 e2
      exact ⟨a3.trans b2 (Nat.le_refl _), fun x hx => reach_fresh b3 hx a1⟩

end

/-- A heap with a DOM (address 0) of two references to the same node object (address 1). -/
def sharedHeap : Heap Nat Unit :=
  [.dom [1, 1], .node (some (1, s!!"p")) none (some 3) (some 2) (), .dom [4], .dict [(s!!"id", 7)],
   .node none none none (some 5) (), .dom []]

/-- The copies of a shared node are separate objects. -/
example : (heapSkip (fun x y : Nat => x != y) 9 0 (.name (s!!"b")) none [] sharedHeap).map
    (fun r => (r.1, match r.2[r.1]? with | some (.dom l) => l | _ => [])) = .ok (6, [7, 12]) := by
  decide
example : (heapSkip (fun x y : Nat => x != y) 9 0 (.name (s!!"p")) (some (s!!"id", some 7)) []
    sharedHeap).map
    (fun r => (r.1, match r.2[r.1]? with | some (.dom l) => l | _ => [])) = .ok (6, []) := by
  decide

/-- **C37 in general is false:** skipping by attribute fails as soon as the DOM contains text. -/
theorem C37_not_in_general : ∃ (hp : Heap Nat Unit) (ts : List (Tree (SelInfo Nat Unit))),
    RepDom hp ts 0 ∧ ∃ N, ∀ fuel, N ≤ fuel →
      heapSkip (fun x y => x != y) fuel 0 .none (some (s!!"id", none)) [] hp = .error .type := by
  have hr : RepDom sharedHeap
      [.mk ⟨some (1, s!!"p"), none, some [(s!!"id", 7)], ()⟩ [.mk ⟨none, none, none, ()⟩ []],
       .mk ⟨some (1, s!!"p"), none, some [(s!!"id", 7)], ()⟩ [.mk ⟨none, none, none, ()⟩ []]] 0 := by
    simp [RepDom, RepNodes, RepNode, sharedHeap, RepAttrs, RepKw]
  refine ⟨sharedHeap, _, hr, ?_⟩
  obtain ⟨N, hN⟩ := C37_skip_error (fun x y : Nat => x != y) .none (some (s!!"id", none)) []
    (by simp [Dict.keys])
    [.mk ⟨some (1, s!!"p"), none, some [(s!!"id", 7)], ()⟩ [.mk ⟨none, none, none, ()⟩ []],
     .mk ⟨some (1, s!!"p"), none, some [(s!!"id", 7)], ()⟩ [.mk ⟨none, none, none, ()⟩ []]]
    ⟨[0, 0], .mk ⟨none, none, none, ()⟩ [], rfl, trivial,
      ⟨s!!"id", none, Or.inl ⟨rfl, rfl⟩⟩, rfl⟩
  exact ⟨N, fun n hn => hN n hn _ _ hr⟩

end Verif
