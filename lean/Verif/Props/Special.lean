import Verif.Lemmas.Html
import Verif.Lemmas.Table
import Verif.Props.Markup

/-! Properties of the special tags `custom` and `comment` (C67, C68). -/

namespace Verif
open Py Spec

/-! ### C67: `custom` -/

/-- C67. Exactly one positional attribute, the name, is accepted. -/
theorem C67_attributes (b : Str) (attrs : List AttrVal) (kw : List (Str × AttrVal)) :
    (∃ out, customExpand (.ok b) attrs kw = .ok out) ↔ ∃ name, attrs = [.obj name] := by
  match attrs with
  | [] => simp [customExpand]
  | [.obj name] => simp [customExpand, markupExpand', bind, Except.bind, pure, Except.pure]
  | [.bool x] => simp [customExpand]
  | _ :: _ :: _ => simp [customExpand]

/-- C67. Any other number of them is a `TypeError`, whatever the body and the keyword attributes are. -/
theorem C67_type_error (body : Except RenderErr Str) (attrs : List AttrVal)
    (kw : List (Str × AttrVal)) (h : attrs.length ≠ 1) :
    customExpand body attrs kw = .error .typeError := by
  match attrs with
  | [] => rfl
  | [.bool _] => simp at h
  | [.obj _] => simp at h
  | .bool _ :: _ :: _ => rfl
  | .obj _ :: _ :: _ => rfl

theorem tokenize_eq {s : Str} {ev : List Event} :
    tokenize s = some ev ↔ lexState .text s = .text ∧ lexEvents .text s = ev := by
  unfold tokenize
  split <;> simp_all

theorem lexEvents_append (a b : Str) (st : LexSt) :
    lexEvents st (a ++ b) = lexEvents st a ++ lexEvents (lexState st a) b := by
  induction a generalizing st with
  | nil => simp [lexEvents, lexState]
  | cons c a ih => simp [lexEvents, lexState, ih]

theorem lexState_append (a b : Str) (st : LexSt) :
    lexState st (a ++ b) = lexState (lexState st a) b := by
  simp [lexState]

/-- A text that is complete by itself may be put between two others. -/
theorem tokenize_append {a b : Str} {ea eb : List Event} (ha : tokenize a = some ea)
    (hb : tokenize b = some eb) : tokenize (a ++ b) = some (ea ++ eb) := by
  rw [tokenize_eq] at *
  rw [lexState_append, lexEvents_append, ha.1, ha.2, hb.1, hb.2]
  exact ⟨rfl, rfl⟩

/-- C67. For valid names, a reader of the output sees one element of the given name, with the given
attributes, around the body. -/
theorem C67_element_partial (name : Str) (hn : ValidName name) (kw : List (Str × AttrVal))
    (hk : ∀ a ∈ kw, ValidName a.1) (b : Str) (ev : List Event) (hb : tokenize b = some ev) :
    ∃ out, customExpand (.ok b) [.obj name] kw = .ok out ∧
      tokenize out = some (.start name (seenAttrs .html kw) :: ev ++ [.close name]) := by
  have hnl : Lex .text (if b.take 1 = ['\n'] then ['\n'] else []) .text [] := by
    split
    · exact Lex.spaces (by simp [isSpace])
    · exact Lex.nil _
  have := tokenize_append (tokenize_append (tokenize_append
    (tokenize_of_lex (Lex.startTag .html hn kw hk)) hb) (tokenize_of_lex hnl))
    (tokenize_of_lex (Lex.closeTag hn))
  refine ⟨_, rfl, ?_⟩
  simpa using this

/-- C67 is false for arbitrary names: the name is not checked or escaped, a part of it becomes an
attribute. -/
theorem C67_not_in_general :
    ∃ (name : Str) (b out : Str), customExpand (.ok b) [.obj name] [] = .ok out ∧
      tokenize b = some [] ∧
      tokenize out ≠ some (.start name [] :: [] ++ [.close name]) := by
  refine ⟨(s!!"a onclick=\"f()\""), [], _, rfl, by decide, by decide⟩

example : customExpand (.ok (s!!"x")) [.obj (s!!"my-w")] [(s!!"id", .obj (s!!"i"))] =
    .ok (s!!"<my-w id=\"i\">x</my-w>") := by decide

/-! ### C68: `comment` -/

/-- What a reader sees after the beginning `<!--` of a comment: everything after the first `-->`;
`none` if the comment is not closed. -/
def afterComment : Str → Option Str
  | '-' :: '-' :: '>' :: s => some s
  | _ :: s => afterComment s
  | [] => none

/-- C68. Attributes of any kind are rejected, before the body is rendered. -/
theorem C68_attributes (body : Except RenderErr Str) (attrs : List AttrVal)
    (kw : List (Str × AttrVal)) (h : attrs ≠ [] ∨ kw ≠ []) :
    commentExpand body attrs kw = .error .typeError := by
  simp [commentExpand, h, bind, Except.bind]; rfl

theorem afterComment_append {u t : Str} (h0 : afterComment u = some t) (h1 : ∀ v, u ≠ '>' :: v)
    (h2 : ∀ v, u ≠ '-' :: '>' :: v) : ∀ s : Str, ¬ (s!!"-->") <:+: s → afterComment (s ++ u) = some t
  | [], _ => h0
  | c :: s, h => by
    have hs : ¬ (s!!"-->") <:+: s := fun h' => h (h'.trans (List.infix_cons List.infix_rfl))
    have ih := afterComment_append h0 h1 h2 s hs
    rw [List.cons_append, afterComment]
    · exact ih
    · intro s' hc e
      subst hc
      match s, e, h with
      | [], e, _ => exact h2 s' e
      | [d], e, _ =>
        injection e with _ e
        exact h1 s' e
      | d :: d' :: s, e, h =>
        injection e with e1 e
        injection e with e2 e
        subst e1; subst e2
        exact h ⟨[], s, rfl⟩

/-- C68. The output is a comment around the body; if `-->` does not occur in the body then nothing of
the body is seen by a reader, nor anything of what follows is hidden. -/
theorem C68_hidden_partial (b : Str) (hb : ¬ (s!!"-->") <:+: b) (t : Str) :
    ∃ out, commentExpand (.ok b) [] [] = .ok ((s!!"<!--") ++ out) ∧ b <+: out ∧
      afterComment (out ++ t) = some t := by
  by_cases hnl : b.take 1 = ['\n']
  · refine ⟨b ++ (s!!"\n-->"), ?_, ⟨_, rfl⟩, ?_⟩
    · simp [commentExpand, hnl, bind, Except.bind, pure, Except.pure]
    · rw [List.append_assoc]
      exact afterComment_append rfl (by simp) (by simp) b hb
  · refine ⟨b ++ (s!!"-->"), ?_, ⟨_, rfl⟩, ?_⟩
    · simp [commentExpand, hnl, bind, Except.bind, pure, Except.pure]
    · rw [List.append_assoc]
      exact afterComment_append rfl (by simp) (by simp) b hb

/-- C68. In particular, escaped text does not get out of the comment. -/
theorem C68_escaped_text_partial (s t : Str) :
    ∃ out, commentExpand (.ok (htmlEscape s)) [] [] = .ok ((s!!"<!--") ++ out) ∧
      htmlEscape s <+: out ∧ afterComment (out ++ t) = some t := by
  refine C68_hidden_partial _ ?_ t
  rintro ⟨p, q, e⟩
  refine (C01_escape_safe s).2.1 ?_
  rw [← e]
  simp

/-- C68 is false for arbitrary bodies, such as those of verbatim and markup blocks. -/
theorem C68_not_in_general :
    ∃ (b out : Str), commentExpand (.ok b) [] [] = .ok ((s!!"<!--") ++ out) ∧
      afterComment out ≠ some [] :=
  ⟨(s!!"x --> <i>"), (s!!"x --> <i>-->"), by decide, by decide⟩

example : commentExpand (.ok (s!!"\n  a - b")) [] [] = .ok (s!!"<!--\n  a - b\n-->") := by decide

end Verif
