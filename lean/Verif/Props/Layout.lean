import Verif.Props.Indent
import Verif.Model.Dom

/-! Indentation of nodes in a rendered document (C09). -/

namespace Verif
open Py Spec

theorem addIndentScan_cons_ne {ind : Str} {c : Char} (hc : c ≠ '\n') (s : Str) :
    addIndentScan ind (c :: s) = c :: addIndentScan ind s := by
  cases s <;> simp [addIndentScan, hc]

theorem addIndentScan_append (ind a b : Str) :
    ∃ g, addIndentScan ind (a ++ b) = addIndentScan ind a ++ g ++ addIndentScan ind b := by
  induction a with
  | nil => exact ⟨[], by simp [addIndentScan]⟩
  | cons c a ih =>
    obtain ⟨g, hg⟩ := ih
    by_cases hc : c = '\n'
    · subst hc
      cases a with
      | nil =>
        cases b with
        | nil => exact ⟨[], by simp [addIndentScan]⟩
        | cons d b =>
          by_cases hd : d = '\n'
          · exact ⟨[], by simp [addIndentScan, hd]⟩
          · refine ⟨ind, ?_⟩
            rw [List.singleton_append, addIndentScan, if_pos rfl]
            simp [hd, addIndentScan]
      | cons d a =>
        refine ⟨g, ?_⟩
        rw [List.cons_append, List.cons_append, addIndentScan, if_pos rfl]
        rw [show addIndentScan ind ('\n' :: d :: a) = _ from by rw [addIndentScan, if_pos rfl]]
        rw [List.cons_append] at hg
        by_cases hd : d = '\n'
        · simp only [hd, if_true] at hg ⊢
          rw [hg]; simp
        · simp only [hd, if_false]
          rw [hg]; simp
    · refine ⟨g, ?_⟩
      rw [List.cons_append, addIndentScan_cons_ne hc, addIndentScan_cons_ne hc, hg]
      simp

/-- Part of a text keeps its lines when the whole is indented. -/
theorem addIndent_infix (ind pre s post : Str) :
    ∃ pre' post', addIndent (pre ++ s ++ post) ind = pre' ++ addIndent s ind ++ post' := by
  unfold addIndent
  split
  · exact ⟨pre, post, rfl⟩
  · obtain ⟨g1, h1⟩ := addIndentScan_append ind (pre ++ s) post
    obtain ⟨g2, h2⟩ := addIndentScan_append ind pre s
    exact ⟨addIndentScan ind pre ++ g2, g1 ++ addIndentScan ind post, by rw [h1, h2]; simp⟩

/-- Tags whose output is the rendered body between two other texts: all but external ones. -/
def Surrounds : Option TagObj → Prop
  | some (.ext _ _) => False
  | _ => True

/-- `c` is `n` itself or occurs below it; `ind` is the concatenation of the indentations of the nodes
around `c`, the outermost first. -/
inductive Occurs (c : Node) : Str → Node → Prop
  | here : Occurs c [] c
  | within {ind : Str} {d : Node} {tag attrs kw body outline indent} : d ∈ body → Occurs c ind d →
      Surrounds tag → (∀ i, indent = some i → '\n' ∉ i) →
      Occurs c (indent.getD [] ++ ind) (.mk .node tag attrs kw body outline indent)

variable (ext : Nat → Except RenderErr Str → List AttrVal → List (Str × AttrVal) →
  Except RenderErr Str)

theorem expandTag_surrounds {t : TagObj} (ht : Surrounds (some t)) {b : Str} {attrs : List AttrVal}
    {kw : List (Str × AttrVal)} {out : Str} (h : expandTag ext t (.ok b) attrs kw = .ok out) :
    b = [] ∨ ∃ pre post, out = pre ++ b ++ post := by
  cases t with
  | markup name void mode =>
    simp only [expandTag, markupExpand] at h
    split at h
    · cases h
    · simp only [markupExpand', bind, Except.bind, pure, Except.pure] at h
      cases void with
      | true =>
        simp only [if_true] at h
        by_cases hb : b = []
        · exact .inl hb
        · simp [hb] at h
      | false =>
        simp only [Bool.false_eq_true, if_false, Except.ok.injEq] at h
        exact .inr ⟨['<'] ++ tagHead mode name kw ++ ['>'],
          (if b.take 1 = ['\n'] then ['\n'] else []) ++ ((s!!"</") ++ name ++ ['>']), by
          rw [← h]; simp only [List.append_assoc]⟩
  | custom =>
    simp only [expandTag, customExpand] at h
    split at h
    · cases h
    · rename_i name
      simp only [markupExpand', bind, Except.bind, pure, Except.pure, Bool.false_eq_true, if_false,
        Except.ok.injEq] at h
      exact .inr ⟨['<'] ++ tagHead .html name kw ++ ['>'],
        (if b.take 1 = ['\n'] then ['\n'] else []) ++ ((s!!"</") ++ name ++ ['>']), by
        rw [← h]; simp only [List.append_assoc]⟩
    · cases h
    · cases h
  | comment =>
    simp only [expandTag, commentExpand, bind, Except.bind, pure, Except.pure] at h
    split at h
    · cases h
    · simp only [Except.ok.injEq] at h
      exact .inr ⟨_, (if b.take 1 = ['\n'] then ['\n'] else []) ++ (s!!"-->"), by
        rw [← h]; simp only [List.append_assoc]; rfl⟩
  | null => exact .inr ⟨[], [], by simp only [expandTag, Except.ok.injEq] at h; simp [h]⟩
  | native n => exact .inr ⟨[], [], by simp only [expandTag, Except.ok.injEq] at h; simp [h]⟩
  | ext n i => exact ht.elim

theorem renderNodes_mem {d : Node} {body : List Node} (hd : d ∈ body) {b : Str}
    (h : renderNodes ext body = .ok b) : ∃ s pre post, renderNode ext d = .ok s ∧ b = pre ++ s ++ post := by
  induction body generalizing b with
  | nil => cases hd
  | cons e body ih =>
    simp only [renderNodes, bind, Except.bind, pure, Except.pure] at h
    split at h
    · cases h
    · rename_i s hs
      split at h
      · cases h
      · rename_i r hr
        cases h
        rcases List.mem_cons.1 hd with rfl | hd
        · exact ⟨s, [], r, hs, by simp⟩
        · obtain ⟨s', pre, post, h1, h2⟩ := ih hd hr
          exact ⟨s', s ++ pre, post, h1, by rw [h2]; simp⟩

/-- The output of an element that contains `d`, before indentation. -/
theorem renderNode_below {d : Node} {tag attrs kw body outline indent} (hd : d ∈ body)
    (ht : Surrounds tag) {out : Str}
    (h : renderNode ext (.mk .node tag attrs kw body outline indent) = .ok out) :
    ∃ s, renderNode ext d = .ok s ∧
      (s = [] ∨ ∃ pre post, out = addIndent (pre ++ s ++ post) (indent.getD [])) := by
  simp only [renderNode, bind, Except.bind, pure, Except.pure] at h
  split at h
  · cases h
  · rename_i inner hi
    split at h
    · cases h
    · rename_i text htext
      cases h
      have hout : out = addIndent ((if outline = true then ['\n'] else []) ++ inner) (indent.getD []) := by
        unfold applyIndent at htext
        split at htext
        · cases htext
          simp [addIndent]
        · split at htext
          · cases htext
          · cases htext
            rfl
      cases hb : renderNodes ext body with
      | error e =>
        -- a tag may not ignore the failure of its body, except when it fails itself
        rw [hb] at hi
        cases tag with
        | none => simp [renderBody] at hi
        | some t =>
          cases t with
          | markup name void mode =>
            simp only [renderBody, expandTag, markupExpand] at hi
            split at hi
            · cases hi
            · cases hi
          | custom =>
            simp only [renderBody, expandTag, customExpand] at hi
            split at hi <;> cases hi
          | comment =>
            simp only [renderBody, expandTag, commentExpand, bind, Except.bind] at hi
            split at hi <;> cases hi
          | null => simp [renderBody, expandTag] at hi
          | native n => simp [renderBody, expandTag] at hi
          | ext n i => exact ht.elim
      | ok b =>
        obtain ⟨s, pre, post, h1, h2⟩ := renderNodes_mem ext hd hb
        refine ⟨s, h1, ?_⟩
        rw [hb] at hi
        have : b = [] ∨ ∃ pre post, inner = pre ++ b ++ post := by
          cases tag with
          | none =>
            simp only [renderBody, Except.ok.injEq] at hi
            exact .inr ⟨[], [], by simp [hi]⟩
          | some t => exact expandTag_surrounds ext ht hi
        rcases this with hb0 | ⟨p, q, hpq⟩
        · rw [hb0] at h2
          left
          simp only [List.nil_eq, List.append_eq_nil_iff] at h2
          exact h2.1.2
        · right
          exact ⟨(if outline = true then ['\n'] else []) ++ p ++ pre, post ++ q, by
            rw [hout, hpq, h2]; simp⟩

/-- C09. In a rendered document, the text of each node occurs with all of its lines (but the first)
indented by the concatenation of the indentations of all enclosing nodes. -/
theorem C09_rendered {c n : Node} {ind : Str} (ho : Occurs c ind n) {out : Str}
    (h : renderNode ext n = .ok out) :
    ∃ s pre post, renderNode ext c = .ok s ∧ out = pre ++ addIndent s ind ++ post := by
  have hno : ∀ {ind : Str} {n : Node}, Occurs c ind n → '\n' ∉ ind := by
    intro ind n ho
    induction ho with
    | here => simp
    | @within ind d tag attrs kw body outline indent _ _ _ hi ih =>
      cases indent with
      | none => simpa using ih
      | some i => simp [hi i rfl, ih]
  induction ho generalizing out with
  | here => exact ⟨out, [], [], h, by simp [addIndent]⟩
  | @within ind d tag attrs kw body outline indent hd hocc ht hi ih =>
    obtain ⟨t, h1, h2⟩ := renderNode_below ext hd ht h
    obtain ⟨s, pre, post, h3, h4⟩ := ih h1
    refine ⟨s, ?_⟩
    rcases h2 with h0 | ⟨p, q, h2⟩
    · refine ⟨[], out, h3, ?_⟩
      rw [h0] at h4
      simp only [List.nil_eq, List.append_eq_nil_iff] at h4
      have hs : s = [] := by
        have h5 := h4.1.2
        cases s with
        | nil => rfl
        | cons c s =>
          exfalso
          unfold addIndent at h5
          split at h5
          · cases h5
          · cases s with
            | nil => simp [addIndentScan] at h5
            | cons d s =>
              rw [addIndentScan] at h5
              split at h5
              · split at h5 <;> cases h5
              · cases h5
      subst hs
      simp [addIndent, addIndentScan]
    · rw [h4] at h2
      obtain ⟨p', q', h5⟩ := addIndent_infix (indent.getD []) (p ++ pre) (addIndent s ind) (post ++ q)
      refine ⟨p', q', h3, ?_⟩
      have e : '\n' ∉ indent.getD [] := by
        cases indent with
        | none => simp
        | some i => exact hi i rfl
      rw [h2, ← C09_addIndent_comp s ind _ (hno hocc) e, ← h5]
      simp

/-- A text of two lines in two indented elements. -/
example :
    let t : Node := .mk (.text (s!!"a\nb")) none none none [] true none
    let n : Node := .mk .node (some (.markup (s!!"div") false .html)) none none
      [.mk .node (some (.markup (s!!"p") false .html)) none none [t] true (some (s!!"\t"))] false
      (some (s!!"  "))
    renderNode ext n = .ok (s!!"<div>\n  \t<p>\n  \ta\n  \tb\n  \t</p>\n  </div>") ∧
      Occurs t (s!!"  \t") n := by
  refine ⟨by rfl, ?_⟩
  refine .within (ind := (s!!"\t")) (indent := some (s!!"  ")) (List.mem_singleton.2 rfl) ?_ trivial
    (by intro i h; cases h; decide)
  exact .within (ind := []) (indent := some (s!!"\t")) (List.mem_singleton.2 rfl) .here trivial
    (by intro i h; cases h; decide)

end Verif
