import Verif.Spec.DomTree
import Verif.Lemmas.PyStr
import Verif.Lemmas.Dict

/-! Proofs about traversal of DOM trees. -/

namespace Verif
open Py

section
variable {I : Type} (skip : Option (Tree I → Bool)) (order : Order)

theorem skipped_iff (t : Tree I) : skipped skip t = true ↔ SkipProp skip t := by
  unfold skipped SkipProp
  cases skip <;> simp

mutual
/-- Relative paths visited by `walk` on a tree. -/
def pathsT : Tree I → List Path
  | .mk i b =>
    if skipped skip (.mk i b) then []
    else (if order = .preorder then [[]] else []) ++ pathsF 0 b ++
      (if order = .postorder then [[]] else [])
def pathsF (k : Nat) : List (Tree I) → List Path
  | [] => []
  | t :: ts => (pathsT t).map (k :: ·) ++ pathsF (k + 1) ts
end

/-- `nodeAt` with positions counted from `k`. -/
def nodeAtFrom (k : Nat) (ts : List (Tree I)) : Path → Option (Tree I)
  | [] => none
  | i :: p =>
    match ts[i - k]? with
    | some t => t.sub p
    | none => none

theorem pathsF_ge (k : Nat) (ts : List (Tree I)) :
    ∀ p ∈ pathsF skip order k ts, ∃ i q, p = i :: q ∧ k ≤ i := by
  induction ts generalizing k with
  | nil => simp [pathsF]
  | cons t ts ih =>
    intro p hp
    simp only [pathsF, List.mem_append, List.mem_map] at hp
    rcases hp with ⟨q, _, rfl⟩ | hp
    · exact ⟨k, q, rfl, Nat.le_refl _⟩
    · obtain ⟨i, q, h1, h2⟩ := ih (k + 1) p hp
      exact ⟨i, q, h1, by omega⟩

mutual
theorem walkNode_paths : (t : Tree I) →
    (walkNode skip order t).map some = (pathsT skip order t).map t.sub
  | .mk i b => by
    have h := walkNodes_paths 0 b
    have h2 : (pathsF skip order 0 b).map (nodeAtFrom 0 b) =
        (pathsF skip order 0 b).map (Tree.mk i b).sub := by
      apply List.map_congr_left
      intro p hp
      obtain ⟨j, q, rfl, _⟩ := pathsF_ge skip order 0 b p hp
      rfl
    rw [h2] at h
    simp only [walkNode, pathsT]
    split
    · rfl
    · simp only [List.map_append, h]
      cases order <;> simp [Tree.sub]
theorem walkNodes_paths : (k : Nat) → (ts : List (Tree I)) →
    (walkNodes skip order ts).map some = (pathsF skip order k ts).map (nodeAtFrom k ts)
  | _, [] => rfl
  | k, t :: ts => by
    have h1 := walkNode_paths t
    have h2 := walkNodes_paths (k + 1) ts
    simp only [walkNodes, pathsF, List.map_append, h1, h2, List.map_map]
    congr 1
    · apply List.map_congr_left
      intro p _
      simp [nodeAtFrom]
    · apply List.map_congr_left
      intro p hp
      obtain ⟨j, q, rfl, hj⟩ := pathsF_ge skip order (k + 1) ts p hp
      obtain ⟨m, rfl⟩ : ∃ m, j = k + 1 + m := ⟨j - (k + 1), by omega⟩
      have e1 : k + 1 + m - (k + 1) = m := by omega
      have e2 : k + 1 + m - k = m + 1 := by omega
      simp [nodeAtFrom, e1, e2]
end

/-- Visibility of a relative path. -/
def VisT (t : Tree I) (p : Path) : Prop :=
  ∀ q, q <+: p → ∃ u, t.sub q = some u ∧ ¬ SkipProp skip u

theorem visT_nil (t : Tree I) : VisT skip t [] ↔ ¬ SkipProp skip t := by
  unfold VisT
  constructor
  · intro h
    obtain ⟨u, hu, hs⟩ := h [] (List.prefix_refl _)
    simp [Tree.sub] at hu
    subst hu
    exact hs
  · intro h q hq
    rw [List.prefix_nil] at hq
    subst hq
    exact ⟨t, rfl, h⟩

theorem visT_cons (t : Tree I) (i : Nat) (p : Path) :
    VisT skip t (i :: p) ↔ ¬ SkipProp skip t ∧ ∃ u, t.body[i]? = some u ∧ VisT skip u p := by
  constructor
  · intro h
    have h0 := h [] (List.nil_prefix)
    obtain ⟨u, hu, hs⟩ := h0
    simp [Tree.sub] at hu
    subst hu
    refine ⟨hs, ?_⟩
    have h1 := h [i] (by simp [List.cons_prefix_cons])
    obtain ⟨u, hu, _⟩ := h1
    simp only [Tree.sub] at hu
    split at hu
    · rename_i u' hu'
      refine ⟨u', hu', ?_⟩
      intro q hq
      obtain ⟨w, hw, hsw⟩ := h (i :: q) (by simpa [List.cons_prefix_cons] using hq)
      simp only [Tree.sub, hu'] at hw
      exact ⟨w, hw, hsw⟩
    · simp at hu
  · rintro ⟨hs, u, hu, hv⟩ q hq
    cases q with
    | nil => exact ⟨t, rfl, hs⟩
    | cons j q =>
      rw [List.cons_prefix_cons] at hq
      obtain ⟨rfl, hq⟩ := hq
      obtain ⟨w, hw, hsw⟩ := hv q hq
      exact ⟨w, by simp [Tree.sub, hu, hw], hsw⟩

mutual
theorem mem_pathsT : (t : Tree I) → ∀ p, p ∈ pathsT skip order t ↔ VisT skip t p
  | .mk i b => by
    intro p
    have h := mem_pathsF 0 b
    have hs := skipped_iff skip (.mk i b)
    simp only [pathsT]
    split
    · rename_i hsk
      have : SkipProp skip (.mk i b) := hs.mp hsk
      constructor
      · intro h; simp at h
      · intro hv
        obtain ⟨u, hu, hn⟩ := hv [] List.nil_prefix
        simp [Tree.sub] at hu
        subst hu
        exact absurd this hn
    · rename_i hsk
      have hn : ¬ SkipProp skip (.mk i b) := fun hh => hsk (hs.mpr hh)
      cases p with
      | nil =>
        rw [visT_nil]
        have : ([] : Path) ∉ pathsF skip order 0 b := by
          intro hm
          obtain ⟨_, _, he, _⟩ := pathsF_ge skip order 0 b _ hm
          simp at he
        cases order <;> simp [hn]
      | cons j q =>
        rw [visT_cons]
        have h1 := h (j :: q)
        have : (j :: q) ∈ (if order = .preorder then [[]] else []) ++ pathsF skip order 0 b ++
            (if order = .postorder then ([[]] : List Path) else []) ↔
            (j :: q) ∈ pathsF skip order 0 b := by
          cases order <;> simp
        rw [this, h1]
        constructor
        · rintro ⟨m, r, t, he, ht, hv⟩
          simp at he
          obtain ⟨rfl, rfl⟩ := he
          exact ⟨hn, t, ht, hv⟩
        · rintro ⟨_, u, hu, hv⟩
          exact ⟨j, q, u, by simp, hu, hv⟩
theorem mem_pathsF : (k : Nat) → (ts : List (Tree I)) → ∀ p, p ∈ pathsF skip order k ts ↔
    ∃ i q t, p = (k + i) :: q ∧ ts[i]? = some t ∧ VisT skip t q
  | _, [] => by intro p; simp [pathsF]
  | k, t :: ts => by
    intro p
    have h1 := mem_pathsT t
    have h2 := mem_pathsF (k + 1) ts
    simp only [pathsF, List.mem_append, List.mem_map]
    rw [h2]
    constructor
    · rintro (⟨q, hq, rfl⟩ | ⟨i, q, u, rfl, hu, hv⟩)
      · exact ⟨0, q, t, by simp, by simp, (h1 q).mp hq⟩
      · exact ⟨i + 1, q, u, by simp; omega, by simpa using hu, hv⟩
    · rintro ⟨i, q, u, rfl, hu, hv⟩
      cases i with
      | zero =>
        simp at hu
        subst hu
        exact Or.inl ⟨q, (h1 q).mpr hv, by simp⟩
      | succ i => exact Or.inr ⟨i, q, u, by simp; omega, by simpa using hu, hv⟩
end

theorem orderLt_left {i j p q} (h : i < j) : OrderLt order (i :: p) (j :: q) := by
  cases order
  · exact .left h
  · exact .left h

theorem orderLt_down {i p q} (h : OrderLt order p q) : OrderLt order (i :: p) (i :: q) := by
  cases order
  · exact .down h
  · exact .down h

mutual
theorem sorted_pathsT : (t : Tree I) → (pathsT skip order t).Pairwise (OrderLt order)
  | .mk i b => by
    have h := sorted_pathsF 0 b
    have hne := pathsF_ge skip order 0 b
    simp only [pathsT]
    split
    · exact List.Pairwise.nil
    · cases order
      · simp only [if_true, List.singleton_append, List.append_nil, if_neg (by decide : ¬ Order.preorder = .postorder)]
        refine List.pairwise_cons.mpr ⟨?_, h⟩
        intro p hp
        obtain ⟨j, q, rfl, _⟩ := hne p hp
        exact .up
      · simp only [List.nil_append, if_true, if_neg (by decide : ¬ Order.postorder = .preorder)]
        refine List.pairwise_append.mpr ⟨h, List.pairwise_singleton _ _, ?_⟩
        intro p hp q hq
        simp at hq
        subst hq
        obtain ⟨j, q, rfl, _⟩ := hne p hp
        exact .up
theorem sorted_pathsF : (k : Nat) → (ts : List (Tree I)) →
    (pathsF skip order k ts).Pairwise (OrderLt order)
  | _, [] => List.Pairwise.nil
  | k, t :: ts => by
    have h1 := sorted_pathsT t
    have h2 := sorted_pathsF (k + 1) ts
    simp only [pathsF]
    refine List.pairwise_append.mpr ⟨?_, h2, ?_⟩
    · rw [List.pairwise_map]
      exact h1.imp (fun h => orderLt_down order h)
    · intro p hp q hq
      simp only [List.mem_map] at hp
      obtain ⟨p, _, rfl⟩ := hp
      obtain ⟨j, q, rfl, hj⟩ := pathsF_ge skip order (k + 1) ts q hq
      exact orderLt_left order (by omega)
end

theorem visible_iff (ts : List (Tree I)) (p : Path) : Visible (SkipProp skip) ts p ↔
    ∃ i q t, p = i :: q ∧ ts[i]? = some t ∧ VisT skip t q := by
  unfold Visible
  constructor
  · rintro ⟨hne, h⟩
    cases p with
    | nil => simp at hne
    | cons i q =>
      obtain ⟨u, hu, _⟩ := h [i] (by simp [List.cons_prefix_cons]) (by simp)
      simp only [nodeAt] at hu
      split at hu
      · rename_i t ht
        refine ⟨i, q, t, rfl, ht, ?_⟩
        intro r hr
        obtain ⟨w, hw, hs⟩ := h (i :: r) (by simpa [List.cons_prefix_cons] using hr) (by simp)
        simp only [nodeAt, ht] at hw
        exact ⟨w, hw, hs⟩
      · simp at hu
  · rintro ⟨i, q, t, rfl, ht, hv⟩
    refine ⟨by simp, ?_⟩
    intro r hr hne
    cases r with
    | nil => simp at hne
    | cons j r =>
      rw [List.cons_prefix_cons] at hr
      obtain ⟨rfl, hr⟩ := hr
      obtain ⟨w, hw, hs⟩ := hv r hr
      exact ⟨w, by simp [nodeAt, ht, hw], hs⟩

theorem nodeAtFrom_zero (ts : List (Tree I)) (p : Path) : nodeAtFrom 0 ts p = nodeAt ts p := by
  cases p <;> rfl

theorem listing_pathsF (ts : List (Tree I)) :
    Listing (OrderLt order) (Visible (SkipProp skip) ts) (pathsF skip order 0 ts) := by
  refine ⟨?_, sorted_pathsF skip order 0 ts⟩
  intro p
  rw [mem_pathsF, visible_iff]
  simp

theorem walk_paths (ts : List (Tree I)) :
    (walkNodes skip order ts).map some = (pathsF skip order 0 ts).map (nodeAt ts) := by
  rw [walkNodes_paths skip order 0 ts]
  apply List.map_congr_left
  intro p _
  exact nodeAtFrom_zero ts p

end

/-! Orders -/

theorem PreLt.irrefl (p : Path) : ¬ PreLt p p := by
  induction p with
  | nil => intro h; cases h
  | cons i p ih => intro h; cases h with
    | left h => exact Nat.lt_irrefl _ h
    | down h => exact ih h

theorem PostLt.irrefl (p : Path) : ¬ PostLt p p := by
  induction p with
  | nil => intro h; cases h
  | cons i p ih => intro h; cases h with
    | left h => exact Nat.lt_irrefl _ h
    | down h => exact ih h

theorem PreLt.trans {p q r : Path} (h1 : PreLt p q) (h2 : PreLt q r) : PreLt p r := by
  induction h1 generalizing r with
  | up => cases h2 <;> exact .up
  | left h => cases h2 with
    | left h' => exact .left (by omega)
    | down h' => exact .left h
  | down h ih => cases h2 with
    | left h' => exact .left h'
    | down h' => exact .down (ih h')

theorem PostLt.trans {p q r : Path} (h1 : PostLt p q) (h2 : PostLt q r) : PostLt p r := by
  induction h1 generalizing r with
  | up => cases h2
  | left h => cases h2 with
    | up => exact .up
    | left h' => exact .left (by omega)
    | down h' => exact .left h
  | down h ih => cases h2 with
    | up => exact .up
    | left h' => exact .left h'
    | down h' => exact .down (ih h')

/-! Drawing -/

section
variable {I : Type} (heading : I → Str) (step : Str)

def drawLineT (indent : Str) (t : Tree I) (p : Path) : Str :=
  match t.sub p with
  | some u => indent ++ (List.replicate p.length step).flatten ++ heading u.info ++ ['\n']
  | none => []

def drawLineF (indent : Str) (k : Nat) (ts : List (Tree I)) (p : Path) : Str :=
  match nodeAtFrom k ts p with
  | some t => indent ++ (List.replicate (p.length - 1) step).flatten ++ heading t.info ++ ['\n']
  | none => []

theorem flatMap_congr_mem {α β} {f g : α → List β} {l : List α} (h : ∀ a ∈ l, f a = g a) :
    l.flatMap f = l.flatMap g := by
  induction l with
  | nil => rfl
  | cons a l ih =>
    simp only [List.flatMap_cons]
    rw [h a (by simp), ih (fun b hb => h b (by simp [hb]))]

mutual
theorem treeNode_lines : (indent : Str) → (t : Tree I) →
    treeNode heading step indent t =
      (pathsT none .preorder t).flatMap (drawLineT heading step indent t)
  | indent, .mk i b => by
    have h := treeNodes_lines (indent ++ step) 0 b
    simp only [treeNode, h, pathsT, skipped]
    simp only [Bool.false_eq_true, if_false, if_true, List.singleton_append, List.append_nil,
      if_neg (by decide : ¬ Order.preorder = .postorder), List.flatMap_cons]
    congr 1
    · simp [drawLineT, Tree.sub, Tree.info]
    · apply flatMap_congr_mem
      intro p hp
      obtain ⟨j, q, rfl, _⟩ := pathsF_ge none .preorder 0 b p hp
      simp only [drawLineF, drawLineT, nodeAtFrom, Tree.sub, Tree.body, Nat.sub_zero]
      cases b[j]? with
      | none => rfl
      | some u =>
        simp only
        cases u.sub q with
        | none => rfl
        | some w => simp [List.replicate_succ, List.append_assoc]
theorem treeNodes_lines : (indent : Str) → (k : Nat) → (ts : List (Tree I)) →
    treeNodes heading step indent ts =
      (pathsF none .preorder k ts).flatMap (drawLineF heading step indent k ts)
  | _, _, [] => rfl
  | indent, k, t :: ts => by
    have h1 := treeNode_lines indent t
    have h2 := treeNodes_lines indent (k + 1) ts
    simp only [treeNodes, pathsF, List.flatMap_append, h1, h2, List.flatMap_map]
    congr 1
    · apply flatMap_congr_mem
      intro p _
      simp [drawLineT, drawLineF, nodeAtFrom]
    · apply flatMap_congr_mem
      intro p hp
      obtain ⟨j, q, rfl, hj⟩ := pathsF_ge none .preorder (k + 1) ts p hp
      obtain ⟨m, rfl⟩ : ∃ m, j = k + 1 + m := ⟨j - (k + 1), by omega⟩
      have e1 : k + 1 + m - (k + 1) = m := by omega
      have e2 : k + 1 + m - k = m + 1 := by omega
      simp [drawLineF, nodeAtFrom, e1, e2]
end

end

end Verif
