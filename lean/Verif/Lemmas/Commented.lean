import Verif.Props.BlankStart
import Verif.Spec.Commented
import Verif.Props.Comments

/-! Comments put before a script. -/

namespace Verif
open Py Spec

section
variable {M : Marks} {U : Uni}

theorem trimmed_notBlank {t : Str} (h : TrimmedLine t) : ∃ c u, t = c :: u ∧ isSpace c = false := by
  have h1 : lstrip (rstrip t) = t := h.trimmed
  obtain ⟨c, u, e, hc⟩ := lstrip_not_blank (l := rstrip t) (by rw [h1]; exact h.nonempty)
  rw [h1] at e
  exact ⟨c, u, e, hc⟩

mutual
theorem item_last : ∀ (i : Spec.Item) (cur : Str), i.Ok → ∃ l, (i.lines cur).getLast? = some l ∧ NonBlank l
  | .line m t, cur, h => by
    refine ⟨cur ++ t, by simp [Item.lines], ?_⟩
    have h : TrimmedLine t := by unfold Item.Ok at h; exact h
    obtain ⟨c, u, rfl, hc⟩ := trimmed_notBlank h
    exact ⟨c, by simp, hc⟩
  | .group inc is, cur, h => by
    unfold Item.Ok at h
    simp only [Item.lines]
    exact items_last is _ h.2.2.1 h.2.2.2
theorem items_last : ∀ (is : List Spec.Item) (cur : Str), is ≠ [] → ItemsOk is → ∃ l, (itemLines cur is).getLast? = some l ∧ NonBlank l
  | [], _, h, _ => absurd rfl h
  | i :: is, cur, _, hok => by
    simp only [itemLines]
    by_cases he : is = []
    · subst he
      obtain ⟨l, h1, h2⟩ := item_last i cur hok.1
      exact ⟨l, by simpa [itemLines] using h1, h2⟩
    · obtain ⟨l, h1, h2⟩ := items_last is cur he hok.2.1
      exact ⟨l, by rw [List.getLast?_append, h1]; rfl, h2⟩
end

theorem items_lines {items : List Spec.Item} (hne : items ≠ []) (hok : ItemsOk items) : lines (itemText items) = itemLines [] items := by
  refine lines_unique _ _ ?_ ?_ rfl
  · intro e
    obtain ⟨l, h, _⟩ := items_last items [] hne hok
    rw [e] at h
    cases h
  · have : ∀ items : List Spec.Item, ItemsOk items → ∀ l ∈ itemLines [] items, '\n' ∉ l := by
      intro items
      induction items with
      | nil => intro _ l hl; simp [itemLines] at hl
      | cons it is ih =>
        intro hok l hl
        simp only [ItemsOk] at hok
        simp only [itemLines, List.mem_append] at hl
        rcases hl with hl | hl
        · exact not_nl_itemLines it [] hok.1 (fun c hc => by cases hc) l hl
        · exact ih hok.2.1 l hl
    exact this items hok

variable [hM : MarksApart M U] {P : Type} {names : Str → Option Char}

theorem comment_block {m : Nat} {items : List Spec.Item} (h : CommentText M names m items) {rest : Str} (hr : Shut M rest) (full : Str) :
    Builds M U P names full 0 (.ref .block) (itemsFlat M items) rest [.stmt (.xblock (List.replicate m '\n') none .comment)] := by
  obtain ⟨mark, t, is, xs, rfl, hm, ht, hx⟩ := h.shape
  have hb := reads_comment (U := U) (P := P) (names := names) (full := full) (k := 0 + 1 + m) hm ht hx hr
  rw [← List.append_assoc] at hb
  have hb' : Builds M U P names full (0 + 1 + m) blockPeg (mark ++ t ++ itemsFlat M is) rest [.stmt .comment] := by
    rcases hm with rfl | rfl <;>
    exact .alt (.there (.first 200 rfl) (.there (.first 200 rfl) (.there (.first 200 rfl) (.there (.first 200 rfl)
      (.there (.first 200 rfl) (.here hb))))))
  rw [line_flat]
  refine builds_block ?_ hb'
  rcases hm with rfl | rfl <;> exact .char

omit hM in
/-- A block before the blocks of a document. -/
theorem doc_prefixed {A B rest : Str} {t t2 mg c : PTree NT} {cs2 : List (PTree NT)} (hy : Yields (rule M U) (.ref .block) (A ++ '\n' :: B) c ('\n' :: B))
    (d2 : DocOf M U ('\n' :: B) t2 cs2 rest mg) (d : DocOf M U (A ++ '\n' :: B) t (c :: cs2) rest mg) {s1 : Stmt P} {ss2 : List (Stmt P)}
    (h1 : buildAll names (A ++ '\n' :: B) (rewrite 0 c) = .ok [.stmt s1]) (h2 : buildAll names ('\n' :: B) (rewrite 0 t2) = .ok [.document ss2]) :
    buildAll names (A ++ '\n' :: B) (rewrite 0 t) = .ok [.document (s1 :: movedAll A.length ss2)] := by
  obtain ⟨as2, bs2, r2, a2, b2, e2, rfl⟩ := (doc_children d2).1 h2
  have w1 : c.text = A := List.append_cancel_right hy.whole
  rw [doc_children d]
  have q1 := buildAll_moved A B (rewrites 0 cs2) _ _ (blocks_within d2.2.1.derives.1 0) a2
  rw [← rewrites_moved, Nat.add_zero] at q1
  have hmg : ∀ pos lo hi, RTree.withinAll lo hi (rewrite pos mg) := by
    obtain ⟨f, hf⟩ := d2.1
    have hd := (run_derives f).1 _ _ _ _ hf
    intro pos lo hi
    cases hd with
    | none => exact trivial
    | some hd =>
      cases hd with
      | ref hd =>
        cases hd with
        | seq hd =>
          cases hd with
          | cons hn hl =>
            cases hn with
            | ref hn =>
              cases hl with
              | cons hl hnil =>
                cases hnil
                cases hl
                cases hn with
                | rx hn =>
                  simp only [rewrite, rewrites, PTree.rename, isIgnored, isReduced, Bool.false_eq_true, if_false, if_true, compactNode, isCompact, List.append_nil,
                    RTree.withinAll, RTree.within, and_true]
                  intro e
                  cases e
  have q2 := buildAll_moved A B _ _ 0 (hmg _ 1 0) b2
  rw [← rewrite_moved] at q2
  refine ⟨s1 :: as2.map (Spec.moved A.length), bs2.map (Built.moved A.length), movedAll A.length r2, ?_, ?_, ?_, ?_⟩
  · simp only [rewrites]
    rw [Nat.zero_add, w1]
    refine (buildAll_append_ok h1 q1).trans ?_
    simp [Built.moved, Function.comp_def]
  · have : (texts (c :: cs2)).length = A.length + (texts cs2).length := by
      rw [← w1]
      simp [texts]
    rw [this]
    exact q2
  · rw [attachQuals_moved]
    exact asStmts_moved _ e2
  · have : ∀ (k : Nat) (as bs : List (Stmt P)), movedAll k (as ++ bs) = as.map (Spec.moved k) ++ movedAll k bs := by
      intro k as bs
      induction as with
      | nil => rfl
      | cons a as ih => simp [movedAll, ih]
    simp [this]

theorem comment_above {m : Nat} {items : List Spec.Item} (h : CommentText M names m items) {s2 l2 : Str} (h2 : firstLine s2 = some l2 ∧ leading l2 = [])
    {ss2 : List (Stmt P)} (hs2 : loadScript M U names s2 = .ok ss2) :
    loadScript M U names (itemText items ++ '\n' :: s2) =
      .ok (.xblock (List.replicate m '\n') none .comment :: movedAll (itemsFlat M items).length ss2) := by
  have hne : items ≠ [] := by
    obtain ⟨mark, t, is, xs, rfl, _⟩ := h.shape
    simp
  obtain ⟨B, t2, hB, p2, g2⟩ := loaded hs2
  have hA := preprocess_items M items hne h.ok
  have hj : preprocess M (itemText items ++ '\n' :: s2) = .ok (itemsFlat M items ++ B) := by
    rw [preprocess_eq_enc] at hA hB ⊢
    rw [lines_append]
    refine enc_append h2.1 h2.2 hB (.inl ?_) hA
    rw [items_lines hne h.ok]
    exact items_last _ _ hne h.ok
  have hB' := hB
  rw [preprocess_eq_enc] at hB'
  obtain ⟨⟨m2, r, k, rfl, _⟩, _⟩ := enc_first h2.1 h2.2 hB'
  have n2 : NonBlank l2 := by simpa using List.find?_some h2.1
  obtain ⟨c2, x2, e2, s2'⟩ := lstrip_not_blank (fun e => lstrip_rstrip_eq_nil.1 e n2)
  have hnl2 : c2 ≠ '\n' := by rintro rfl; cases s2'
  have hone : ∀ c, isMark M c = true → c ≠ '\n' := by
    rintro c hc rfl
    rw [nl_not_mark U] at hc
    cases hc
  have m1 : M.indentS ≠ '\n' := hone _ (by simp [isMark])
  have m2' : M.indentT ≠ '\n' := hone _ (by simp [isMark])
  have y2 := parse_yields.1 p2
  obtain ⟨rest, b2, hrest⟩ := blocks_of_document m1 m2' y2 ⟨c2, by rw [e2]; simp, hnl2⟩
  generalize List.replicate m2 '\n' ++ (lstrip (rstrip l2) ++ r) = B at *
  obtain ⟨c, hy, hb⟩ := comment_block (U := U) (P := P) h (rest := '\n' :: B) (by intro c hc; cases hc; exact .inl rfl) (itemsFlat M items ++ '\n' :: B)
  obtain ⟨A', hA'⟩ : ∃ A', itemsFlat M items = '\n' :: A' := by
    obtain ⟨mark, t, is, xs, rfl, _⟩ := h.shape
    exact ⟨_, line_flat⟩
  have b : BlockSeries M U (itemsFlat M items ++ '\n' :: B) (c :: topBlocks t2) rest :=
    (YieldsMore.cons hy (by rw [hA']; simp; omega) b2.more).series
  obtain ⟨mg, hm⟩ := margin_all (M := M) (U := U) hrest
  have d2 := doc_of m1 m2' b2 hm y2
  rw [hA'] at b hy hb hj ⊢
  obtain ⟨t, ht, _⟩ := document_of_blocks m1 m2' b hrest
  have d := doc_of (s := A' ++ '\n' :: B) m1 m2' b hm ht
  have := doc_prefixed hy d2 d hb g2
  unfold loadScript
  rw [hj]
  simp only
  rw [show parse M U ('\n' :: A' ++ '\n' :: B) = .ok t from parse_yields.2 ht]
  simp only
  rw [this]

end
end Verif
