import Verif.Lemmas.JoiningDocs
import Verif.Lemmas.DefIds
import Verif.Lemmas.Faults
import Verif.Spec.Moved

/-! Scripts that are put together: statements. -/

set_option linter.unusedSimpArgs false

namespace Verif
open Py Spec

/-! ### Trees at other positions -/

/-- The tree, `k` characters further on. -/
def RTree.moved (k : Nat) : RTree → RTree
  | .node n pos w cs => .node n (k + pos) w (cs.map (RTree.moved k))
  | .str pos w => .str (k + pos) w

theorem compactNode_moved (k : Nat) (n : NT) (pos : Nat) (w : Str) (cs : List RTree) :
    compactNode n (k + pos) w (cs.map (RTree.moved k)) = (compactNode n pos w cs).moved k := by
  unfold compactNode
  split
  · match cs with
    | [] => simp [RTree.moved]
    | [c] => rfl
    | c :: d :: cs => simp [RTree.moved]
  · simp [RTree.moved]

mutual
theorem rewrite_moved (k : Nat) : ∀ (pos : Nat) (t : PTree NT), rewrite (k + pos) t = (rewrite pos t).map (RTree.moved k)
  | pos, .node none _ cs => by simp only [rewrite]; exact rewrites_moved k pos cs
  | pos, .node (some n) w cs => by
    rw [rewrite_some, rewrite_some, rewrites_moved k pos cs]
    split
    · rfl
    · split
      · split
        · simp [RTree.moved]
        · rfl
      · simp [compactNode_moved]
theorem rewrites_moved (k : Nat) : ∀ (pos : Nat) (ts : List (PTree NT)), rewrites (k + pos) ts = (rewrites pos ts).map (RTree.moved k)
  | _, [] => rfl
  | pos, t :: ts => by
    simp only [rewrites, List.map_append]
    rw [rewrite_moved k pos t, Nat.add_assoc, rewrites_moved k _ ts]
end

theorem rewrites_append (pos : Nat) (as bs : List (PTree NT)) :
    rewrites pos (as ++ bs) = rewrites pos as ++ rewrites (pos + (texts as).length) bs := by
  induction as generalizing pos with
  | nil => simp [rewrites, texts]
  | cons a as ih =>
    simp only [List.cons_append, rewrites, ih, List.append_assoc]
    congr 2
    simp [texts, Nat.add_assoc]

/-! ### Nodes at other positions -/

section
variable {P : Type}

/-- The node, with the identities of definitions moved. -/
def Built.moved (k : Nat) : Built P → Built P
  | .clause e b => .clause e (movedOpt k b)
  | .stmt s => .stmt (Spec.moved k s)
  | .document ss => .document (movedAll k ss)
  | b => b

theorem attachQuals_moved (k : Nat) (bs : List (Built P)) : attachQuals (bs.map (Built.moved k)) = (attachQuals bs).map (Built.moved k) := by
  fun_induction attachQuals bs with
  | case1 q e q' rest ih => simp only [List.map_cons, Built.moved, attachQuals, ih]
  | case2 b rest h ih =>
    simp only [List.map_cons, ← ih]
    cases b <;> try rfl
    rename_i r e
    cases r
    · rfl
    · cases rest with
      | nil => cases e <;> rfl
      | cons c rest =>
        cases e <;> try rfl
        cases c <;> try rfl
        exact absurd rfl (h _ _ _ _ rfl)
  | case3 => rfl

theorem asExprs_moved (k : Nat) {cs : List (Built P)} {r} (h : asExprs cs = .ok r) : asExprs (cs.map (Built.moved k)) = .ok r := by
  fun_induction asExprs cs generalizing r with
  | case1 => exact h
  | case2 _ _ _ ih =>
    obtain ⟨x, h1, h2⟩ := Except.bind_eq_ok.1 h
    simp only [List.map_cons, Built.moved, asExprs, ih h1]
    exact h2
  | case3 => cases h

theorem asParts_moved (k : Nat) {cs : List (Built P)} {r} (h : asParts cs = .ok r) : asParts (cs.map (Built.moved k)) = .ok r := by
  fun_induction asParts cs generalizing r with
  | case1 => exact h
  | case2 _ _ _ ih | case3 _ _ _ ih | case4 _ _ ih =>
    obtain ⟨x, h1, h2⟩ := Except.bind_eq_ok.1 h
    simp only [List.map_cons, Built.moved, asParts, ih h1]
    exact h2
  | case5 => cases h

theorem asArgs_moved (k : Nat) {cs : List (Built P)} {r} (h : asArgs cs = .ok r) : asArgs (cs.map (Built.moved k)) = .ok r := by
  fun_induction asArgs cs generalizing r with
  | case1 => exact h
  | case2 _ _ _ ih | case3 _ _ _ ih =>
    obtain ⟨x, h1, h2⟩ := Except.bind_eq_ok.1 h
    simp only [List.map_cons, Built.moved, asArgs, ih h1]
    exact h2
  | case4 => cases h

theorem asTails_moved (k : Nat) {cs : List (Built P)} {r} (h : asTails cs = .ok r) : asTails (cs.map (Built.moved k)) = .ok r := by
  fun_induction asTails cs generalizing r with
  | case1 => exact h
  | case2 => exact h
  | case3 _ _ ih =>
    obtain ⟨x, h1, h2⟩ := Except.bind_eq_ok.1 h
    simp only [List.map_cons, Built.moved, asTails, ih h1]
    exact h2
  | case4 => cases h

theorem asChain_moved (k : Nat) {cs : List (Built P)} {r} (h : asChain cs = .ok r) : asChain (cs.map (Built.moved k)) = .ok r := by
  fun_induction asChain cs generalizing r with
  | case1 => exact h
  | case2 _ _ _ _ ih =>
    obtain ⟨x, h1, h2⟩ := Except.bind_eq_ok.1 h
    simp only [List.map_cons, Built.moved, asChain, ih h1]
    exact h2
  | case3 => cases h

theorem asNots_moved (k : Nat) {cs : List (Built P)} {r} (h : asNots cs = .ok r) : asNots (cs.map (Built.moved k)) = .ok r := by
  fun_induction asNots cs generalizing r with
  | case1 => exact h
  | case2 _ ih =>
    obtain ⟨x, h1, h2⟩ := Except.bind_eq_ok.1 h
    simp only [List.map_cons, Built.moved, asNots, ih h1]
    exact h2
  | case3 => cases h

theorem asItems_moved (k : Nat) {cs : List (Built P)} {r} (h : asItems cs = .ok r) : asItems (cs.map (Built.moved k)) = .ok r := by
  fun_induction asItems cs generalizing r with
  | case1 => exact h
  | case2 _ _ ih | case3 _ _ ih | case4 _ _ ih | case5 _ _ ih =>
    obtain ⟨x, h1, h2⟩ := Except.bind_eq_ok.1 h
    simp only [List.map_cons, Built.moved, asItems, ih h1]
    exact h2
  | case6 => cases h

theorem asStmts_moved (k : Nat) {cs : List (Built P)} {r} (h : asStmts cs = .ok r) :
    asStmts (cs.map (Built.moved k)) = .ok (movedAll k r) := by
  fun_induction asStmts cs generalizing r with
  | case1 => cases h; rfl
  | case2 _ _ ih | case3 _ _ ih | case4 _ _ ih | case5 _ _ ih | case6 _ _ ih =>
    obtain ⟨x, h1, h2⟩ := Except.bind_eq_ok.1 h
    cases h2
    simp only [List.map_cons, Built.moved, asStmts, ih h1, movedAll, Spec.moved]
    rfl
  | case7 => cases h

theorem asTargets_moved (k : Nat) {cs : List (Built P)} {r} (h : asTargets cs = .ok r) : asTargets (cs.map (Built.moved k)) = .ok r := by
  fun_induction asTargets cs generalizing r with
  | case1 => exact h
  | case2 _ _ ih =>
    obtain ⟨x, h1, h2⟩ := Except.bind_eq_ok.1 h
    simp only [List.map_cons, Built.moved, asTargets, ih h1]
    exact h2
  | case3 => cases h

theorem asTags_moved (k : Nat) {cs : List (Built P)} {r} (h : asTags cs = .ok r) : asTags (cs.map (Built.moved k)) = .ok r := by
  fun_induction asTags cs generalizing r with
  | case1 => exact h
  | case2 _ _ ih =>
    obtain ⟨x, h1, h2⟩ := Except.bind_eq_ok.1 h
    simp only [List.map_cons, Built.moved, asTags, ih h1]
    exact h2
  | case3 => cases h

theorem asItemsOf_moved (k : Nat) {cs : List (Built P)} {r} (h : asItemsOf cs = .ok r) : asItemsOf (cs.map (Built.moved k)) = .ok r := by
  fun_induction asItemsOf cs generalizing r with
  | case1 => exact h
  | case2 _ _ ih =>
    obtain ⟨x, h1, h2⟩ := Except.bind_eq_ok.1 h
    simp only [List.map_cons, Built.moved, asItemsOf, ih h1]
    exact h2
  | case3 => cases h

theorem collectAttrs_moved (k : Nat) {cs : List (Built P)} {us ns r} (h : collectAttrs cs us ns = .ok r) :
    collectAttrs (cs.map (Built.moved k)) us ns = .ok r := by
  fun_induction collectAttrs cs us ns with
  | case1 => exact h
  | case2 => cases h
  | case3 e b bs us ns hn ih => simp only [List.map_cons, Built.moved, collectAttrs, if_neg hn]; exact ih h
  | case4 n e b bs us ns ih => simp only [List.map_cons, Built.moved, collectAttrs]; exact ih h
  | case5 => cases h

theorem splitDef_moved (k : Nat) {cs : List (Built P)} {r} (h : splitDef cs = .ok r) :
    splitDef (cs.map (Built.moved k)) = .ok (r.1, Spec.moved k r.2) := by
  fun_induction splitDef cs generalizing r with
  | case1 => cases h; rfl
  | case2 _ _ _ _ ih =>
    obtain ⟨x, h1, h2⟩ := Except.bind_eq_ok.1 h
    cases h2
    simp only [List.map_cons, Built.moved, splitDef, ih h1]
    rfl
  | case3 => cases h

theorem setupDef_moved (k : Nat) {pos : Nat} {name : Str} {cs : List (Built P)} {r} (h : setupDef pos name cs = .ok r) :
    setupDef (k + pos) name (cs.map (Built.moved k)) = .ok (Spec.moved k r) := by
  unfold setupDef at h ⊢
  obtain ⟨⟨as, b⟩, h1, h2⟩ := Except.bind_eq_ok.1 h
  rw [splitDef_moved k h1]
  simp only [bind, Except.bind] at h2 ⊢
  split at h2
  · cases h2
  · next hn =>
    rw [if_neg hn]
    match as with
    | [] => cases h2; rfl
    | (a, true) :: as => cases h2; rfl
    | (a, false) :: as => cases h2; rfl

theorem setupAssign_moved (k : Nat) {cs : List (Built P)} {r} (h : setupAssign cs = .ok r) :
    setupAssign (cs.map (Built.moved k)) = .ok (Spec.moved k r) := by
  unfold setupAssign at h
  split at h
  · cases h; rfl
  · cases h; rfl
  · obtain ⟨x, h1, h2⟩ := Except.bind_eq_ok.1 h
    cases h2
    simp only [List.map_cons, List.map_nil, Built.moved, setupAssign, h1]
    rfl
  · obtain ⟨x, h1, h2⟩ := Except.bind_eq_ok.1 h
    cases h2
    simp only [List.map_cons, List.map_nil, Built.moved, setupAssign, h1]
    rfl
  · cases h

theorem splitClauses_moved (k : Nat) {cs : List (Built P)} {r} (h : splitClauses cs = .ok r) :
    splitClauses (cs.map (Built.moved k)) = .ok (movedClauses k r.1, movedOpt k r.2) := by
  fun_induction splitClauses cs generalizing r with
  | case1 => cases h; rfl
  | case2 => cases h; rfl
  | case3 _ _ _ ih =>
    obtain ⟨x, h1, h2⟩ := Except.bind_eq_ok.1 h
    cases h2
    simp only [List.map_cons, Built.moved, splitClauses, ih h1]
    rfl
  | case4 => cases h

theorem setupExpr_moved (k : Nat) {names : Str → Option Char} {n : NT} {w : Str} {cs : List (Built P)} {b}
    (h : setupExpr names n w cs = .ok b) : setupExpr names n w (cs.map (Built.moved k)) = .ok (b.moved k) := by
  unfold setupExpr at h
  repeat' split at h
  all_goals first
    | (cases h; done)
    | (cases h; rfl)
    | (obtain ⟨x, h1, h2⟩ := Except.bind_eq_ok.1 h; cases h2
       simp only [List.map_cons, List.map_nil, Built.moved, setupExpr, asExprs_moved k h1]; rfl)
    | (obtain ⟨x, h1, h2⟩ := Except.bind_eq_ok.1 h; cases h2
       simp only [List.map_cons, List.map_nil, Built.moved, setupExpr, asParts_moved k h1]; rfl)
    | (obtain ⟨x, h1, h2⟩ := Except.bind_eq_ok.1 h; cases h2
       simp only [List.map_cons, List.map_nil, Built.moved, setupExpr, asArgs_moved k h1]; rfl)
    | (obtain ⟨x, h1, h2⟩ := Except.bind_eq_ok.1 h; cases h2
       simp only [List.map_cons, List.map_nil, Built.moved, setupExpr, asTails_moved k h1]; rfl)
    | (obtain ⟨x, h1, h2⟩ := Except.bind_eq_ok.1 h; cases h2
       simp only [List.map_cons, List.map_nil, Built.moved, setupExpr, asChain_moved k h1]; rfl)
    | (obtain ⟨x, h1, h2⟩ := Except.bind_eq_ok.1 h; cases h2
       simp only [List.map_cons, List.map_nil, Built.moved, setupExpr, asNots_moved k h1]; rfl)
    | (obtain ⟨x, h1, h2⟩ := Except.bind_eq_ok.1 h; cases h2
       simp only [setupExpr, h1]; rfl)
    | (cases h; simp [setupExpr, Built.moved, *])
    | (exact absurd rfl (by assumption))
    | (simp at *)

/-- Text blocks: the nodes whose column is of interest. -/
def isTextBlock (n : NT) : Bool := n = .block_verbat || n = .block_normal || n = .block_markup

theorem setup_tag_moved (k : Nat) {names : Str → Option Char} {full : Str} {pos : Nat} {w : Str} {cs : List (Built P)} {r}
    (hn : ∀ n rest, cs = .str .name_id n :: rest → False) (h : collectAttrs cs [] [] = .ok r) :
    setup names full .tag_expand pos w (cs.map (Built.moved k)) = .ok (.tag (.tag (s!!"div") none r.1 r.2)) := by
  have h' := collectAttrs_moved k h
  simp only [setup]
  split
  · next n rest e =>
    exfalso
    cases cs with
    | nil => cases e
    | cons b bs =>
      simp only [List.map_cons, List.cons.injEq] at e
      cases b <;> cases e.1
      exact hn _ _ rfl
  · rw [h']; rfl

theorem setup_moved (k : Nat) {names : Str → Option Char} {full full' : Str} {n : NT} {pos : Nat} {w : Str} {cs : List (Built P)} {b}
    (hc : isTextBlock n = true → columnAt full' (k + pos) = columnAt full pos)
    (h : setup names full n pos w cs = .ok b) : setup names full' n (k + pos) w (cs.map (Built.moved k)) = .ok (b.moved k) := by
  unfold setup at h
  split at h
  all_goals try split at h
  all_goals first
    | (cases h; done)
    | (cases h; rfl)
    | (obtain ⟨x, h1, h2⟩ := Except.bind_eq_ok.1 h; cases h2; simp only [setup, asParts_moved k h1]; rfl)
    | (obtain ⟨x, h1, h2⟩ := Except.bind_eq_ok.1 h; cases h2; simp only [setup, asItems_moved k h1, hc rfl]; rfl)
    | (obtain ⟨x, h1, h2⟩ := Except.bind_eq_ok.1 h; cases h2; simp only [List.map_cons, Built.moved, setup, asStmts_moved k h1]; rfl)
    | (obtain ⟨x, h1, h2⟩ := Except.bind_eq_ok.1 h; cases h2; simp only [setup, asTargets_moved k h1]; rfl)
    | (obtain ⟨x, h1, h2⟩ := Except.bind_eq_ok.1 h; cases h2; simp only [setup, asTags_moved k h1]; rfl)
    | (obtain ⟨x, h1, h2⟩ := Except.bind_eq_ok.1 h; cases h2; simp only [List.map_cons, Built.moved, setup, asItemsOf_moved k h1]; rfl)
    | (obtain ⟨x, h1, h2⟩ := Except.bind_eq_ok.1 h; cases h2; simp only [setup, splitClauses_moved k h1]; rfl)
    | (obtain ⟨x, h1, h2⟩ := Except.bind_eq_ok.1 h; cases h2; simp only [setup, setupAssign_moved k h1]; rfl)
    | (obtain ⟨x, h1, h2⟩ := Except.bind_eq_ok.1 h; cases h2; simp only [List.map_cons, Built.moved, setup, setupDef_moved k h1]; rfl)
    | (obtain ⟨x, h1, h2⟩ := Except.bind_eq_ok.1 h; cases h2; simp only [List.map_cons, Built.moved, setup, collectAttrs_moved k h1]; rfl)
    | (cases h; simp [setup, Built.moved, *])
    | (simp only at h; split at h <;> first
        | (cases h; done)
        | (cases h; simp [setup, Built.moved, *]))
    | (obtain ⟨x, h1, h2⟩ := Except.bind_eq_ok.1 h; cases h2; exact setup_tag_moved k (by assumption) h1)
    | (rw [setup.eq_def]
       split
       all_goals first
         | exact setupExpr_moved k h
         | exact absurd rfl (by assumption))

mutual
/-- The text blocks of the tree are at positions between the two given ones. -/
def RTree.within (lo hi : Nat) : RTree → Prop
  | .node n pos _ cs => (isTextBlock n = true → lo ≤ pos ∧ pos ≤ hi) ∧ RTree.withinAll lo hi cs
  | .str _ _ => True
def RTree.withinAll (lo hi : Nat) : List RTree → Prop
  | [] => True
  | c :: cs => c.within lo hi ∧ RTree.withinAll lo hi cs
end

theorem withinAll_append {lo hi : Nat} (as bs : List RTree) :
    RTree.withinAll lo hi (as ++ bs) ↔ RTree.withinAll lo hi as ∧ RTree.withinAll lo hi bs := by
  induction as with
  | nil => simp [RTree.withinAll]
  | cons a as ih => simp only [List.cons_append, RTree.withinAll, ih, and_assoc]

mutual
theorem RTree.within.mono {lo hi lo' hi' : Nat} (h1 : lo' ≤ lo) (h2 : hi ≤ hi') : ∀ {t : RTree}, t.within lo hi → t.within lo' hi'
  | .node .., h => ⟨fun e => ⟨Nat.le_trans h1 (h.1 e).1, Nat.le_trans (h.1 e).2 h2⟩, withinAll.mono h1 h2 h.2⟩
  | .str .., _ => trivial
theorem RTree.withinAll.mono {lo hi lo' hi' : Nat} (h1 : lo' ≤ lo) (h2 : hi ≤ hi') : ∀ {ts : List RTree}, RTree.withinAll lo hi ts → RTree.withinAll lo' hi' ts
  | [], _ => trivial
  | _ :: _, h => ⟨within.mono h1 h2 h.1, withinAll.mono h1 h2 h.2⟩
end

theorem within_compact {lo hi : Nat} {n : NT} {pos : Nat} {w : Str} {cs : List RTree} (h1 : lo ≤ pos) (h2 : pos ≤ hi)
    (h : RTree.withinAll lo hi cs) : (compactNode n pos w cs).within lo hi := by
  unfold compactNode
  split
  · split
    · exact h.1
    · exact ⟨fun _ => ⟨h1, h2⟩, h⟩
  · exact ⟨fun _ => ⟨h1, h2⟩, h⟩

section
variable {M : Marks} {U : Uni}

mutual
theorem Derives.within : ∀ {p : Peg NT} {t : PTree NT}, Derives (rule M U) p t → ∀ start : Nat,
    RTree.withinAll start (start + t.text.length) (rewrite start t) ∧ RTree.withinAll start (start + t.text.length) (rewrites start t.children)
  | _, _, .lit l, start => ⟨trivial, trivial⟩
  | _, _, .rx _, start => ⟨trivial, trivial⟩
  | _, _, .none, start => ⟨trivial, trivial⟩
  | _, _, .not, start => ⟨trivial, trivial⟩
  | _, _, .seq h, start => by
    have h1 := DerivesSeq.within h start
    simp only [rewrite, PTree.text, PTree.children]
    exact ⟨h1, h1⟩
  | _, _, .star h, start => by
    have h1 := DerivesStar.within h start
    simp only [rewrite, PTree.text, PTree.children]
    exact ⟨h1, h1⟩
  | _, _, .alt hp h, start => by
    have h1 := (Derives.within h start).1
    simp only [rewrite, rewrites, PTree.text, PTree.children, List.append_nil]
    exact ⟨h1, h1⟩
  | _, _, .some h, start => by
    have h1 := (Derives.within h start).1
    simp only [rewrite, rewrites, PTree.text, PTree.children, List.append_nil]
    exact ⟨h1, h1⟩
  | _, _, .plus (c := c) h h', start => by
    have h1 := (Derives.within h start).1
    have h2 := DerivesStar.within h' (start + c.text.length)
    have h3 := (withinAll_append _ _).2 ⟨RTree.withinAll.mono (Nat.le_refl _) (by simp [Nat.add_assoc]) h1, RTree.withinAll.mono (Nat.le_add_right _ _) (Nat.le_refl _) h2⟩
    simp only [rewrite, rewrites, PTree.text, PTree.children, texts_cons, List.length_append, ← Nat.add_assoc]
    exact ⟨h3, h3⟩
  | _, _, .ref (n := n) (t := t) h, start => by
    have h2 := (Derives.within h start).2
    obtain ⟨w, cs, rfl⟩ := h.anon (rule_noRef n)
    simp only [PTree.text, PTree.children, PTree.rename] at h2 ⊢
    refine ⟨?_, h2⟩
    rw [rewrite_some]
    split
    · exact trivial
    split
    · split
      · exact ⟨trivial, trivial⟩
      · exact h2
    · exact ⟨within_compact (Nat.le_refl _) (Nat.le_add_right _ _) h2, trivial⟩
theorem DerivesSeq.within : ∀ {ps : List (Peg NT)} {ts : List (PTree NT)}, DerivesSeq (rule M U) ps ts → ∀ start : Nat,
    RTree.withinAll start (start + (texts ts).length) (rewrites start ts)
  | _, _, .nil, start => trivial
  | _, _, .cons (c := c) h h', start => by
    have h1 := (Derives.within h start).1
    have h2 := DerivesSeq.within h' (start + c.text.length)
    simp only [rewrites, texts_cons, List.length_append, ← Nat.add_assoc]
    exact (withinAll_append _ _).2 ⟨RTree.withinAll.mono (Nat.le_refl _) (Nat.le_add_right _ _) h1, RTree.withinAll.mono (Nat.le_add_right _ _) (Nat.le_refl _) h2⟩
theorem DerivesStar.within : ∀ {p : Peg NT} {ts : List (PTree NT)}, DerivesStar (rule M U) p ts → ∀ start : Nat,
    RTree.withinAll start (start + (texts ts).length) (rewrites start ts)
  | _, _, .nil, start => trivial
  | _, _, .cons (c := c) h h', start => by
    have h1 := (Derives.within h start).1
    have h2 := DerivesStar.within h' (start + c.text.length)
    simp only [rewrites, texts_cons, List.length_append, ← Nat.add_assoc]
    exact (withinAll_append _ _).2 ⟨RTree.withinAll.mono (Nat.le_refl _) (Nat.le_add_right _ _) h1, RTree.withinAll.mono (Nat.le_add_right _ _) (Nat.le_refl _) h2⟩
end

theorem margin_within {w x : Str} (hne : w ≠ []) (hx : x = w) {ps : List (Peg NT)} {cs : List (PTree NT)} (h' : DerivesSeq (rule M U) ps cs) (start : Nat) :
    RTree.withinAll (start + 1) (start + (texts (PTree.node (some NT.margin_out) x [.node (some NT.nl) w [], .node none [] []] :: cs)).length)
      (rewrites start (PTree.node (some NT.margin_out) x [.node (some NT.nl) w [], .node none [] []] :: cs)) := by
  subst hx
  simp only [rewrites]
  refine (withinAll_append _ _).2 ⟨?_, ?_⟩
  · rw [rewrite_some, if_neg (by decide), if_neg (by decide)]
    simp only [compactNode, isCompact, Bool.false_eq_true, if_false]
    refine ⟨⟨fun e => (by cases e), ?_⟩, trivial⟩
    rw [rewrites, rewrite_some, if_pos (by decide)]
    simp [rewrites, rewrite, RTree.withinAll]
  · have h2 := DerivesSeq.within h' (start + x.length)
    have hw : 1 ≤ x.length := by cases x with | nil => exact absurd rfl hne | cons => simp
    refine RTree.withinAll.mono (by omega) ?_ h2
    simp only [texts_cons, PTree.text, List.length_append]
    omega

/-- The node of a block, and its text blocks, which come after its first newline. -/
theorem Derives.block_within {t : PTree NT} (h : Derives (rule M U) (.ref .block) t) (start : Nat) :
    ∃ cs, rewrite start t = [.node .block start t.text cs] ∧ RTree.withinAll (start + 1) (start + t.text.length) cs := by
  cases h with
  | ref h =>
    cases h with
    | seq h =>
      cases h with
      | cons h h' =>
        cases h with
        | ref h =>
          cases h with
          | seq h =>
            cases h with
            | cons hn hl =>
              cases hn with
              | ref hn =>
                cases hl with
                | cons hl hnil =>
                  cases hnil
                  cases hl
                  cases hn with
                  | rx hn =>
                    have hne := (lang_nl hn).1
                    rename_i w
                    rename_i cs
                    exact ⟨_, by rw [PTree.rename, rewrite_some, if_neg (by decide), if_neg (by decide)]; simp only [compactNode, isCompact, Bool.false_eq_true, if_false]; rfl,
                      margin_within hne (by simp [texts, PTree.text, PTree.rename]) h' start⟩
end

theorem columnAt_moved (A B : Str) {pos : Nat} (h : 1 ≤ pos) : columnAt (A ++ '\n' :: B) (A.length + pos) = columnAt ('\n' :: B) pos := by
  obtain ⟨p, rfl⟩ : ∃ p, pos = p + 1 := ⟨pos - 1, by omega⟩
  unfold columnAt
  rw [List.take_append, List.take_of_length_le (by omega), Nat.add_sub_cancel_left, List.reverse_append]
  simp only [List.take_succ_cons, List.reverse_cons, List.append_assoc, List.cons_append, List.nil_append]
  congr 2
  have : ∀ u v : Str, (u ++ ('\n' :: v)).takeWhile (· != '\n') = u.takeWhile (· != '\n') := by
    intro u v
    induction u with
    | nil => simp
    | cons c u ih => simp only [List.cons_append, List.takeWhile_cons, ih]
  rw [this]
  exact (this (List.take p B).reverse []).symm

mutual
theorem build_moved (A B : Str) {names : Str → Option Char} : ∀ (t : RTree) (b : Built P) (hi : Nat), t.within 1 hi → build names ('\n' :: B) t = .ok b →
    build names (A ++ '\n' :: B) (t.moved A.length) = .ok (b.moved A.length)
  | .str _ _, _, _, _, h => by cases h
  | .node n pos w cs, b, hi, ha, h => by
    unfold build at h
    simp only [RTree.moved, build]
    split at h
    · next bs hb =>
      rw [buildAll_moved A B cs bs hi ha.2 hb]
      simp only [attachQuals_moved]
      exact setup_moved A.length (fun e => columnAt_moved A B (ha.1 e).1) h
    · cases h
theorem buildAll_moved (A B : Str) {names : Str → Option Char} : ∀ (ts : List RTree) (bs : List (Built P)) (hi : Nat), RTree.withinAll 1 hi ts → buildAll names ('\n' :: B) ts = .ok bs →
    buildAll names (A ++ '\n' :: B) (ts.map (RTree.moved A.length)) = .ok (bs.map (Built.moved A.length))
  | [], bs, _, _, h => by cases h; rfl
  | t :: ts, bs, hi, ha, h => by
    unfold buildAll at h
    simp only [List.map_cons, buildAll]
    split at h
    · next b hb =>
      rw [build_moved A B t b hi ha.1 hb]
      simp only
      split at h
      · next bs' hbs =>
        cases h
        rw [buildAll_moved A B ts bs' hi ha.2 hbs]
        rfl
      · cases h
    · cases h
end

/-- A text that follows makes no difference. -/
theorem setup_before {names : Str → Option Char} {full full' : Str} {n : NT} {pos : Nat} {w : Str} {cs : List (Built P)}
    (hc : isTextBlock n = true → columnAt full' pos = columnAt full pos) : setup names full' n pos w cs = setup names full n pos w cs := by
  by_cases hn : isTextBlock n = true
  · have : n = .block_verbat ∨ n = .block_normal ∨ n = .block_markup := by simpa [isTextBlock, or_assoc] using hn
    rcases this with rfl | rfl | rfl <;> simp only [setup, hc rfl]
  · cases n <;> first | rfl | exact absurd rfl hn

mutual
theorem build_before (A B : Str) {names : Str → Option Char} : ∀ (t : RTree), t.within 0 A.length →
    (build names (A ++ B) t : Except SetupErr (Built P)) = build names A t
  | .str _ _, _ => rfl
  | .node n pos w cs, ha => by
    simp only [build]
    rw [buildAll_before A B cs ha.2]
    split
    · refine setup_before fun e => ?_
      unfold columnAt
      rw [List.take_append_of_le_length (ha.1 e).2]
    · rfl
theorem buildAll_before (A B : Str) {names : Str → Option Char} : ∀ (ts : List RTree), RTree.withinAll 0 A.length ts →
    (buildAll names (A ++ B) ts : Except SetupErr (List (Built P))) = buildAll names A ts
  | [], _ => rfl
  | t :: ts, ha => by
    simp only [buildAll]
    rw [build_before A B t ha.1, buildAll_before A B ts ha.2]
end


/-! ### Documents -/

section
variable {M : Marks} {U : Uni}

theorem BlockSeries.derives {s rest : Str} {cs : List (PTree NT)} (h : BlockSeries M U s cs rest) :
    (∀ c ∈ cs, Derives (rule M U) (.ref .block) c) ∧ texts cs ++ rest = s := by
  obtain ⟨f, h⟩ := h
  have hw := (run_whole (rule M U) f).2.2.2.2.1 (.ref .block) s
  rw [h] at hw
  refine ⟨?_, hw.1⟩
  obtain ⟨c, cs', rfl, hc, hs⟩ := (run_derives f).2.2.2.2.1 _ _ _ _ h
  have : ∀ {p} {cs : List (PTree NT)}, DerivesStar (rule M U) p cs → ∀ c ∈ cs, Derives (rule M U) p c := by
    intro p cs
    induction cs with
    | nil => intro _ c hc; cases hc
    | cons d cs ih =>
      intro h c hc
      cases h with
      | cons h h' =>
        rcases List.mem_cons.1 hc with rfl | hc
        · exact h
        · exact ih h' c hc
  intro d hd
  rcases List.mem_cons.1 hd with rfl | hd
  · exact hc
  · exact this hs d hd

/-- The nodes of blocks, which follow each other. -/
theorem blocks_built {names : Str → Option Char} {full : Str} {cs : List (PTree NT)} (hd : ∀ c ∈ cs, Derives (rule M U) (.ref .block) c) {pos : Nat}
    {bs : List (Built P)} (h : buildAll names full (rewrites pos cs) = .ok bs) : ∃ ss : List (Stmt P), bs = ss.map Built.stmt := by
  induction cs generalizing pos bs with
  | nil => cases h; exact ⟨[], rfl⟩
  | cons c cs ih =>
    obtain ⟨ks, hk, _⟩ := (hd c List.mem_cons_self).block_within pos
    simp only [rewrites, hk, List.cons_append, List.nil_append, buildAll] at h
    split at h
    · next b hb =>
      split at h
      · next bs' hbs =>
        cases h
        obtain ⟨ss, rfl⟩ := ih (fun c hc => hd c (List.mem_cons_of_mem _ hc)) hbs
        have : ∃ s, b = .stmt s := by
          unfold build at hb
          split at hb
          · simp only [setup] at hb
            split at hb <;> first | (cases hb; exact ⟨_, rfl⟩) | cases hb
          · cases hb
        obtain ⟨s, rfl⟩ := this
        exact ⟨s :: ss, rfl⟩
      · cases h
    · cases h

theorem blocks_within {cs : List (PTree NT)} (hd : ∀ c ∈ cs, Derives (rule M U) (.ref .block) c) (pos : Nat) :
    RTree.withinAll (pos + 1) (pos + (texts cs).length) (rewrites pos cs) := by
  induction cs generalizing pos with
  | nil => exact trivial
  | cons c cs ih =>
    obtain ⟨ks, hk, hw⟩ := (hd c List.mem_cons_self).block_within pos
    have h2 := ih (fun c hc => hd c (List.mem_cons_of_mem _ hc)) (pos + c.text.length)
    simp only [rewrites, hk, texts_cons, List.length_append, ← Nat.add_assoc]
    refine (withinAll_append _ _).2 ⟨⟨⟨fun e => (by cases e), RTree.withinAll.mono (Nat.le_refl _) (Nat.le_add_right _ _) hw⟩, trivial⟩, RTree.withinAll.mono (by omega) (Nat.le_refl _) h2⟩

theorem attachQuals_stmts (ss : List (Stmt P)) (bs : List (Built P)) : attachQuals (ss.map Built.stmt ++ bs) = ss.map Built.stmt ++ attachQuals bs := by
  induction ss with
  | nil => rfl
  | cons s ss ih => simp only [List.map_cons, List.cons_append, attachQuals, ih]

theorem asStmts_stmts (ss : List (Stmt P)) (bs : List (Built P)) : asStmts (ss.map Built.stmt ++ bs) = (do
    let r ← asStmts bs
    return ss ++ r) := by
  induction ss with
  | nil => simp only [List.map_nil, List.nil_append]; cases asStmts bs <;> rfl
  | cons s ss ih =>
    simp only [List.map_cons, List.cons_append, asStmts, ih]
    cases asStmts bs <;> rfl

/-- What a document consists of. -/
def DocOf (M : Marks) (U : Uni) (s : Str) (t : PTree NT) (cs : List (PTree NT)) (rest : Str) (mg : PTree NT) : Prop :=
  Yields (rule M U) (.opt (.ref .margin)) rest mg [] ∧ BlockSeries M U s cs rest ∧
    rewrite 0 t = [.node .document 0 s (rewrites 0 cs ++ rewrite (texts cs).length mg)]

/-- The children of a document. -/
theorem doc_children {s rest : Str} {t mg : PTree NT} {cs : List (PTree NT)} (h : DocOf M U s t cs rest mg) {names : Str → Option Char} {full : Str}
    {ss : List (Stmt P)} : buildAll names full (rewrite 0 t) = .ok [.document ss] ↔
      ∃ as bs r, buildAll names full (rewrites 0 cs) = .ok (as.map Built.stmt) ∧ buildAll names full (rewrite (texts cs).length mg) = .ok bs ∧
        asStmts (attachQuals bs) = .ok r ∧ ss = as ++ r := by
  obtain ⟨_, hs, hr⟩ := h
  have hd := hs.derives.1
  rw [hr]
  simp only [buildAll, build]
  rw [buildAll_append]
  cases h1 : (buildAll names full (rewrites 0 cs) : Except SetupErr (List (Built P))) with
  | error e => simp
  | ok x =>
    obtain ⟨as, rfl⟩ := blocks_built hd h1
    cases h2 : (buildAll names full (rewrite (texts cs).length mg) : Except SetupErr (List (Built P))) with
    | error e => simp
    | ok bs =>
      simp only [setup, attachQuals_stmts, asStmts_stmts]
      cases h3 : asStmts (attachQuals bs) with
      | error e => simp [bind, Except.bind, h3]
      | ok r =>
        simp only [bind, Except.bind, pure, Except.pure, Except.ok.injEq, List.cons.injEq, Built.document.injEq, and_true]
        constructor
        · rintro rfl
          exact ⟨as, bs, r, rfl, rfl, h3, rfl⟩
        · rintro ⟨as', bs', r', e1, rfl, h3', rfl⟩
          rw [h3] at h3'
          cases h3'
          have : as = as' := (List.map_inj_right (fun a b h => by cases h; rfl)).1 e1
          rw [this]

theorem doc_of {s rest : Str} (h1 : M.indentS ≠ '\n') (h2 : M.indentT ≠ '\n') {cs : List (PTree NT)} {t mg : PTree NT}
    (hc : BlockSeries M U ('\n' :: s) cs rest) (hm : Yields (rule M U) (.opt (.ref .margin)) rest mg [])
    (ht : Yields (rule M U) (.ref .document) ('\n' :: s) t []) : DocOf M U ('\n' :: s) t cs rest mg := by
  refine ⟨hm, hc, ?_⟩
  have hw := hc.derives.2
  obtain ⟨f, hc⟩ := hc
  have hp : Yields (rule M U) (.plus (.ref .block)) ('\n' :: s) (anon ('\n' :: s) rest cs) rest :=
    ⟨f + 1, by simp [run, hc, wrapMany]⟩
  have hcore : Yields (rule M U) (.ref .core_blocks) ('\n' :: s) _ rest :=
    .ref (.alt (.there (tailBlocks_nl h1 h2) (.here hp)))
  have hdoc : Yields (rule M U) (.ref .document) ('\n' :: s) _ _ := .ref (.seq (.cons (.opt_some hcore) (.cons hm (.nil _))))
  have e := (ht.unique hdoc).1
  have ht' := ht.whole
  have hwt : (consumed ('\n' :: s) rest).length = (texts cs).length := by
    rw [← hw]; simp [consumed]
  rw [e] at ht' ⊢
  simp only [List.append_nil, PTree.rename, PTree.text, anon] at ht' ⊢
  rw [rewrite_some, if_neg (by decide), if_neg (by decide), ht']
  simp only [compactNode, isCompact, Bool.false_eq_true, if_false, rewrites, rewrite, isIgnored, isReduced, if_true, List.append_nil,
    PTree.text, hwt, Nat.zero_add]

/-- The children of a document that was put together. -/
theorem doc_joined {A B rest : Str} {t t1 t2 mg m1 : PTree NT} {cs1 cs2 : List (PTree NT)} (d1 : DocOf M U A t1 cs1 [] m1)
    (d2 : DocOf M U ('\n' :: B) t2 cs2 rest mg) (d : DocOf M U (A ++ '\n' :: B) t (cs1 ++ cs2) rest mg) {names : Str → Option Char} {ss1 ss2 : List (Stmt P)}
    (h1 : buildAll names A (rewrite 0 t1) = .ok [.document ss1]) (h2 : buildAll names ('\n' :: B) (rewrite 0 t2) = .ok [.document ss2]) :
    buildAll names (A ++ '\n' :: B) (rewrite 0 t) = .ok [.document (ss1 ++ movedAll A.length ss2)] := by
  obtain ⟨as1, bs1, r1, a1, b1, e1, rfl⟩ := (doc_children d1).1 h1
  obtain ⟨as2, bs2, r2, a2, b2, e2, rfl⟩ := (doc_children d2).1 h2
  have w1 : texts cs1 = A := by simpa using d1.2.1.derives.2
  have hm1 : m1 = .node none [] [] := by
    have : Yields (rule M U) (.opt (.ref .margin)) [] _ [] := .opt_none (.ref (.seq (.head (.ref (.rx rfl)))))
    exact (d1.1.unique this).1
  subst hm1
  have : r1 = [] := by
    simp only [rewrite, rewrites, buildAll, Except.ok.injEq] at b1
    subst b1
    cases e1
    rfl
  subst this
  rw [doc_children d]
  -- the second part, moved
  have q1 := buildAll_moved A B (rewrites 0 cs2) _ _ (blocks_within d2.2.1.derives.1 0) a2
  rw [← rewrites_moved, Nat.add_zero] at q1
  have hmg : ∀ pos lo hi, RTree.withinAll lo hi (rewrite pos mg) := by
    obtain ⟨f, hf⟩ := d2.1
    have hd := (run_derives f).1 _ _ _ _ hf
    intro pos lo hi
    cases hd with
    | none => exact trivial
    | some hd =>
      cases hd with
      | ref hd =>
        cases hd with
        | seq hd =>
          cases hd with
          | cons hn hl =>
            cases hn with
            | ref hn =>
              cases hl with
              | cons hl hnil =>
                cases hnil
                cases hl
                cases hn with
                | rx hn =>
                  simp only [rewrite, rewrites, PTree.rename, isIgnored, isReduced, Bool.false_eq_true, if_false, if_true, compactNode, isCompact, List.append_nil,
                    List.nil_append, RTree.withinAll, RTree.within, and_true]
                  intro e
                  cases e
  have q2 := buildAll_moved A B _ _ 0 (hmg _ 1 0) b2
  rw [← rewrite_moved] at q2
  refine ⟨as1 ++ as2.map (Spec.moved A.length), bs2.map (Built.moved A.length), movedAll A.length r2, ?_, ?_, ?_, ?_⟩
  · rw [rewrites_append, Nat.zero_add, w1]
    refine (buildAll_append_ok (xs := as1.map Built.stmt) (ys := (as2.map Built.stmt).map (Built.moved A.length)) ?_ q1).trans ?_
    · have := blocks_within d1.2.1.derives.1 0
      simp only [w1, Nat.zero_add] at this
      rw [buildAll_before A _ _ (RTree.withinAll.mono (Nat.zero_le _) (Nat.le_refl _) this)]
      exact a1
    · simp [Built.moved, Function.comp_def]
  · have : (texts (cs1 ++ cs2)).length = A.length + (texts cs2).length := by
      rw [← w1]
      simp [texts]
    rw [this]
    exact q2
  · rw [attachQuals_moved]
    exact asStmts_moved _ e2
  · have : ∀ (k : Nat) (as bs : List (Stmt P)), movedAll k (as ++ bs) = as.map (Spec.moved k) ++ movedAll k bs := by
      intro k as bs
      induction as with
      | nil => rfl
      | cons a as ih => simp [movedAll, ih]
    simp [this]

end
end
end Verif
