import Verif.Lemmas.DomTree

/-! Proofs about construction and transformation of DOM trees. -/

namespace Verif
open Py

/-! ### Flattening -/

section
variable {N : Type}

mutual
theorem leaves_total_item : (i : Item N) → ∀ is ls, Leaves is ls → ∃ ks, Leaves (i :: is) (ks ++ ls)
  | .node n => fun _ _ h => ⟨[.node n], .node h⟩
  | .none => fun _ _ h => ⟨[.none], .none h⟩
  | .other => fun _ _ h => ⟨[.other], .other h⟩
  | .seq js => fun _ _ h => by
    obtain ⟨ks, hk⟩ := leaves_total js
    exact ⟨ks, .seq hk h⟩
theorem leaves_total : (is : List (Item N)) → ∃ ls, Leaves is ls
  | [] => ⟨[], .nil⟩
  | i :: is => by
    obtain ⟨ls, hl⟩ := leaves_total is
    obtain ⟨ks, hk⟩ := leaves_total_item i is ls hl
    exact ⟨ks ++ ls, hk⟩
end

theorem leaf_nodes_append (a b : List (Leaf N)) :
    Leaf.nodes (a ++ b) = Leaf.nodes a ++ Leaf.nodes b := by
  induction a with
  | nil => rfl
  | cons l a ih => cases l <;> simp [Leaf.nodes, ih]

theorem flatten_leaves {is : List (Item N)} {ls : List (Leaf N)} (h : Leaves is ls) :
    (Leaf.other ∉ ls → flatten is = .ok (Leaf.nodes ls)) ∧
    (Leaf.other ∈ ls → flatten is = .error .type) := by
  induction h with
  | nil => simp [flatten, Leaf.nodes]
  | node _ ih =>
    constructor
    · intro ho
      simp [flatten, flattenItem, ih.1 (by simpa using ho), bind, Except.bind, pure, Except.pure,
        Leaf.nodes]
    · intro ho
      simp [flatten, flattenItem, ih.2 (by simpa using ho), bind, Except.bind]
  | none _ ih =>
    constructor
    · intro ho
      simp [flatten, flattenItem, ih.1 (by simpa using ho), bind, Except.bind, pure, Except.pure,
        Leaf.nodes]
    · intro ho
      simp [flatten, flattenItem, ih.2 (by simpa using ho), bind, Except.bind]
  | other _ ih =>
    constructor
    · intro ho
      simp at ho
    · intro _
      simp [flatten, flattenItem, bind, Except.bind]
  | seq _ _ ih1 ih2 =>
    constructor
    · intro ho
      simp only [List.mem_append, not_or] at ho
      simp [flatten, flattenItem, ih1.1 ho.1, ih2.1 ho.2, bind, Except.bind, pure, Except.pure,
        leaf_nodes_append]
    · intro ho
      rename_i js ks is ls _ _
      by_cases h1 : Leaf.other ∈ ks
      · simp [flatten, flattenItem, ih1.2 h1, bind, Except.bind]
      · have h2 : Leaf.other ∈ ls := by
          simp only [List.mem_append] at ho
          tauto
        simp [flatten, flattenItem, ih1.1 h1, ih2.2 h2, bind, Except.bind]

theorem flatten_nodes (ns : List N) : flatten (ns.map Item.node) = .ok ns := by
  induction ns with
  | nil => rfl
  | cons n ns ih => simp [flatten, flattenItem, ih, bind, Except.bind, pure, Except.pure]

end

/-! ### Transformation -/

section
variable {I : Type} (skip : Option (Tree I → Bool)) (f : Tree I → List (Tree I))

theorem alterPreNodes_fst (ts : List (Tree I)) :
    (alterPreNodes skip f ts).1 = (alterPreNodes skip f ts).2.flatMap f := by
  induction ts with
  | nil => simp [alterPreNodes]
  | cons t ts ih => simp [alterPreNodes, ih]

mutual
theorem alterPreNode_calls : (t : Tree I) → ∀ ts us, BottomUpCalls (SkipProp skip) f ts us →
    BottomUpCalls (SkipProp skip) f (t :: ts) (alterPreNode skip f t :: us)
  | .mk i b => by
    intro ts us h
    have hb := alterPreNodes_calls b
    simp only [alterPreNode]
    split
    · rename_i hs
      exact .skip ((skipped_iff skip _).mp hs) h
    · rename_i hs
      refine .call (fun hh => hs ((skipped_iff skip _).mpr hh)) ?_ h
      rw [alterPreNodes_fst]
      exact .mk hb
theorem alterPreNodes_calls : (ts : List (Tree I)) →
    BottomUpCalls (SkipProp skip) f ts (alterPreNodes skip f ts).2
  | [] => by simp only [alterPreNodes]; exact .nil
  | t :: ts => by
    simp only [alterPreNodes]
    exact alterPreNode_calls t ts _ (alterPreNodes_calls ts)
end

theorem alterPreNodes_bottomUp (ts : List (Tree I)) :
    BottomUp (SkipProp skip) f ts (alterPreNodes skip f ts).1 := by
  rw [alterPreNodes_fst]
  exact .mk (alterPreNodes_calls skip f ts)

theorem alterPost_topDown (n : Nat) :
    (∀ t u ts us, alterPostNode skip f n t = some u → TopDownCalls (SkipProp skip) f ts us →
      TopDownCalls (SkipProp skip) f (t :: ts) (u :: us)) ∧
    (∀ ts us, alterPostNodes skip f n ts = some us → TopDown (SkipProp skip) f ts us) ∧
    (∀ ts us, alterPostEach skip f n ts = some us → TopDownCalls (SkipProp skip) f ts us) := by
  induction n with
  | zero => simp [alterPostNode, alterPostNodes, alterPostEach]
  | succ n ih =>
    obtain ⟨ih1, ih2, ih3⟩ := ih
    refine ⟨?_, ?_, ?_⟩
    · intro t u ts us h hc
      obtain ⟨i, b⟩ := t
      simp only [alterPostNode] at h
      split at h
      · rename_i hs
        cases h
        exact .skip ((skipped_iff skip _).mp hs) hc
      · rename_i hs
        simp only [Option.map_eq_some_iff] at h
        obtain ⟨b', hb', rfl⟩ := h
        exact .call (fun hh => hs ((skipped_iff skip _).mpr hh)) (ih2 _ _ hb') hc
    · intro ts us h
      simp only [alterPostNodes] at h
      exact .mk (ih3 _ _ h)
    · intro ts us h
      cases ts with
      | nil =>
        simp only [alterPostEach, Option.some.injEq] at h
        subst h
        exact .nil
      | cons t ts =>
        simp only [alterPostEach] at h
        split at h
        · rename_i t' ts' h1 h2
          cases h
          exact ih1 _ _ _ _ h1 (ih3 _ _ h2)
        · simp at h

/-! Transforms that only drop nodes according to their data. -/

open Classical in
/-- Drop the nodes whose data satisfy `P`. -/
noncomputable def dropIf (P : I → Prop) (t : Tree I) : List (Tree I) := if P t.info then [] else [t]

mutual
theorem dropPre_node (P : I → Prop) : (t : Tree I) →
    alterPreNode none (dropIf P) t = .mk t.info (prune P t.body)
  | .mk i b => by
    simp only [alterPreNode, skipped, Bool.false_eq_true, if_false, Tree.info, Tree.body,
      dropPre_nodes P b]
theorem dropPre_nodes (P : I → Prop) : (ts : List (Tree I)) →
    (alterPreNodes none (dropIf P) ts).1 = prune P ts
  | [] => by simp [alterPreNodes, prune]
  | .mk i b :: ts => by
    simp only [alterPreNodes, dropPre_nodes P ts]
    rw [dropPre_node P (.mk i b)]
    by_cases h : P i <;> simp [dropIf, Tree.info, Tree.body, prune, h]
end

open Classical in
theorem prune_filter (P : I → Prop) (ts : List (Tree I)) :
    prune P (ts.flatMap (dropIf P)) = prune P ts := by
  induction ts with
  | nil => rfl
  | cons t ts ih =>
    obtain ⟨i, b⟩ := t
    by_cases h : P i
    · simp only [List.flatMap_cons, dropIf, Tree.info, prune, h, if_true, List.nil_append]
      exact ih
    · simp only [List.flatMap_cons, dropIf, Tree.info, prune, h, if_false, List.singleton_append]
      rw [← ih]

theorem mem_dropIf (P : I → Prop) (ts : List (Tree I)) (t : Tree I) (h : t ∈ ts.flatMap (dropIf P)) :
    t ∈ ts ∧ ¬ P t.info := by
  simp only [List.mem_flatMap, dropIf] at h
  obtain ⟨u, hu, ht⟩ := h
  split at ht
  · simp at ht
  · simp at ht
    subst ht
    exact ⟨hu, by assumption⟩

theorem dropPost_each (P : I → Prop) (ts : List (Tree I)) (hts : ∀ t ∈ ts, ¬ P t.info)
    (hb : ∀ t ∈ ts, ∃ N, ∀ n, N ≤ n → alterPostNodes none (dropIf P) n t.body = some (prune P t.body)) :
    ∃ N, ∀ n, N ≤ n → alterPostEach none (dropIf P) n ts = some (prune P ts) := by
  induction ts with
  | nil =>
    refine ⟨1, ?_⟩
    intro n hn
    obtain ⟨n, rfl⟩ : ∃ m, n = m + 1 := ⟨n - 1, by omega⟩
    simp [alterPostEach, prune]
  | cons t ts ih =>
    obtain ⟨N1, h1⟩ := ih (fun u hu => hts u (by simp [hu])) (fun u hu => hb u (by simp [hu]))
    obtain ⟨N2, h2⟩ := hb t (by simp)
    refine ⟨max N1 N2 + 2, ?_⟩
    intro n hn
    obtain ⟨n, rfl⟩ : ∃ m, n = m + 2 := ⟨n - 2, by omega⟩
    have hp := hts t (by simp)
    obtain ⟨i, b⟩ := t
    simp only [Tree.info] at hp
    simp only [Tree.body] at h2
    simp only [alterPostEach, h1 (n + 1) (by omega), alterPostNode, skipped, Bool.false_eq_true,
      if_false, h2 n (by omega), Option.map_some, prune, hp]

mutual
theorem dropPost_body (P : I → Prop) : (t : Tree I) →
    ∃ N, ∀ n, N ≤ n → alterPostNodes none (dropIf P) n t.body = some (prune P t.body)
  | .mk i b => by
    have h := dropPost_bodies P b
    obtain ⟨N, hN⟩ := dropPost_each P (b.flatMap (dropIf P))
      (fun t ht => (mem_dropIf P b t ht).2) (fun t ht => h t (mem_dropIf P b t ht).1)
    refine ⟨N + 1, ?_⟩
    intro n hn
    obtain ⟨n, rfl⟩ : ∃ m, n = m + 1 := ⟨n - 1, by omega⟩
    simp only [alterPostNodes, Tree.body, hN n (by omega), prune_filter]
theorem dropPost_bodies (P : I → Prop) : (ts : List (Tree I)) → ∀ t ∈ ts,
    ∃ N, ∀ n, N ≤ n → alterPostNodes none (dropIf P) n t.body = some (prune P t.body)
  | [] => by simp
  | t :: ts => by
    intro u hu
    simp only [List.mem_cons] at hu
    rcases hu with rfl | hu
    · exact dropPost_body P u
    · exact dropPost_bodies P ts u hu
end

end
end Verif
