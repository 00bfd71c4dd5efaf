import Verif.Lemmas.PageDocument
import Verif.Spec.PageEvents
import Verif.Props.Markup

/-! Pages as a reader sees them. -/

namespace Verif
open Py Spec

section
variable {M : Marks} {void : Str → Option Bool} {env : Str → Str} {known : Str → Prop}

theorem nameChar_valid {c : Char} (h : nameChar c = true ∨ c = '.' ∨ c = '-' ∨ c = ':') : isNameChar c = true := by
  rcases h with h | rfl | rfl | rfl
  · have hs : isSpace c = false := by
      simp only [nameChar, azI, ascDigit, Bool.or_eq_true, Bool.and_eq_true, decide_eq_true_eq, beq_iff_eq] at h
      simp only [isSpace, Bool.or_eq_false_iff, Bool.and_eq_false_iff, decide_eq_false_iff_not, beq_eq_false_iff_ne]
      rcases h with h | rfl
      · omega
      · decide
    have hn : ∀ d : Char, nameChar d = false → (c != d) = true := by
      intro d hd
      simp only [bne_iff_ne, ne_eq]
      rintro rfl
      rw [hd] at h
      cases h
    simp [isNameChar, hs]
    simp only [bne_iff_ne] at hn
    refine ⟨⟨⟨⟨⟨⟨?_, ?_⟩, ?_⟩, ?_⟩, ?_⟩, ?_⟩, ?_⟩ <;> exact hn _ (by decide)
  all_goals decide

theorem Spec.Name.valid {n : Str} (h : Spec.Name n) : ValidName n :=
  ⟨by obtain ⟨c, s, rfl, -⟩ := h.start; simp, fun c hc => nameChar_valid (.inl (h.chars c hc))⟩

theorem Spec.XmlName.valid {n : Str} (h : XmlName n) : ValidName n :=
  ⟨by obtain ⟨c, s, rfl, -⟩ := h.start; simp, fun c hc => nameChar_valid (h.chars c hc)⟩

/-- The line is read as the events. -/
abbrev Sees (l : Str) (ev : List Event) : Prop := Lex .text l .text ev

theorem content_reads {c : Content} (h : c.Safe env) : Sees (c.html env) (c.events env) := by
  cases c with
  | verbat s => exact Lex.safe s h
  | normal ps =>
    have := Lex.safe _ (C01_escape_safe (piecesValue env ps))
    unfold textEvents at this
    rw [C02_escape_roundtrip] at this
    exact this
  | markup ps => exact Lex.safe _ h

theorem elem_kw_seen (e : Elem) : seenAttrs .html (e.attrs.map (fun a => (a.1, AttrVal.obj (piecesValue env a.2)))) = e.seen env := by
  unfold Elem.seen
  induction e.attrs with
  | nil => rfl
  | cons a l ih => simp only [List.map_cons, seenAttrs, ih]

theorem elem_start {e : Elem} (h : ElemOk M known e) : Sees ('<' :: (e.head env ++ ['>'])) [.start e.name (e.seen env)] := by
  have := Lex.startTag .html h.name.toName.valid (e.attrs.map (fun a => (a.1, AttrVal.obj (piecesValue env a.2))))
    (by
      intro a ha
      obtain ⟨x, hx, rfl⟩ := List.mem_map.1 ha
      exact (h.names x hx).valid)
  rw [elemHead_eq, elem_kw_seen] at this
  simpa using this

theorem elem_void {e : Elem} (h : ElemOk M known e) : Sees ('<' :: (e.head env ++ s!!" />")) [.void e.name (e.seen env)] := by
  have := Lex.voidTag .html h.name.toName.valid (e.attrs.map (fun a => (a.1, AttrVal.obj (piecesValue env a.2))))
    (by
      intro a ha
      obtain ⟨x, hx, rfl⟩ := List.mem_map.1 ha
      exact (h.names x hx).valid)
  rw [elemHead_eq, elem_kw_seen] at this
  simpa using this

theorem elem_end {e : Elem} (h : ElemOk M known e) : Sees ('<' :: '/' :: (e.name ++ ['>'])) [.close e.name] := by
  simpa using Lex.closeTag h.name.toName.valid

theorem starts_read {es : List Elem} (h : ∀ e ∈ es, ElemOk M known e) : Sees (startTags env es) (startEvents env es) := by
  induction es with
  | nil => exact .nil _
  | cons e es ih =>
    exact Lex.append (elem_start (h e (by simp))) (ih (fun x hx => h x (by simp [hx])))

theorem ends_read {es : List Elem} (h : ∀ e ∈ es, ElemOk M known e) : Sees (endTags es) (endEvents es) := by
  unfold endTags endEvents
  have : ∀ l : List Elem, (∀ e ∈ l, ElemOk M known e) →
      Sees (l.flatMap (fun e => '<' :: '/' :: (e.name ++ ['>']))) (l.map (fun e => .close e.name)) := by
    intro l hl
    induction l with
    | nil => exact .nil _
    | cons e l ih => exact Lex.append (elem_end (hl e (by simp))) (ih (fun x hx => hl x (by simp [hx])))
  exact this _ (by simpa using h)

theorem empties_read (vd : Str → Bool) : ∀ {es : List Elem}, (∀ e ∈ es, ElemOk M known e) → Sees (emptyTags vd env es) (emptyEvents vd env es)
  | [], _ => .nil _
  | [e], h => by
    simp only [emptyTags, emptyEvents]
    split
    · exact elem_void (h e (by simp))
    · have := Lex.append (elem_start (env := env) (h e (by simp))) (elem_end (h e (by simp)))
      simpa using this
  | e :: e' :: es, h => by
    have ih := empties_read vd (es := e' :: es) (fun x hx => h x (by simp [hx]))
    have := Lex.append (Lex.append (elem_start (env := env) (h e (by simp))) ih) (elem_end (h e (by simp)))
    simpa [emptyTags, emptyEvents] using this

theorem emptyEvents_full {vd : Str → Bool} : ∀ {es : List Elem}, (∀ e ∈ es, vd e.name = false) →
    emptyEvents vd env es = startEvents env es ++ endEvents es
  | [], _ => rfl
  | [e], h => by simp [emptyEvents, h e (by simp), startEvents, endEvents]
  | e :: e' :: es, h => by
    rw [emptyEvents, emptyEvents_full (es := e' :: es) (fun x hx => h x (by simp [hx]))]
    · simp [startEvents, endEvents]
    · simp

/-- Lines are read one after another. -/
inductive SeesAll : List Str → List Event → Prop
  | nil : SeesAll [] []
  | cons {l : Str} {ev : List Event} {ls : List Str} {evs : List Event} : Sees l ev → SeesAll ls evs → SeesAll (l :: ls) (ev ++ evs)

theorem SeesAll.append {ls ls' : List Str} {ev ev' : List Event} (h : SeesAll ls ev) (h' : SeesAll ls' ev') :
    SeesAll (ls ++ ls') (ev ++ ev') := by
  induction h with
  | nil => exact h'
  | cons h1 _ ih => rw [List.append_assoc]; exact .cons h1 ih

theorem SeesAll.one {l : Str} {ev : List Event} (h : Sees l ev) : SeesAll [l] ev := by
  have := SeesAll.cons h .nil
  simpa using this

theorem SeesAll.blank (m : Nat) : SeesAll (List.replicate m []) [] := by
  induction m with
  | zero => exact .nil
  | succ m ih => exact SeesAll.cons (ev := []) (.nil _) ih

theorem SeesAll.shift {inc : Str} (hinc : Blanks inc) {ls : List Str} {ev : List Event} (h : SeesAll ls ev) :
    SeesAll (ls.map (Spec.shift inc)) ev := by
  induction h with
  | nil => exact .nil
  | cons h1 _ ih =>
    refine .cons ?_ ih
    unfold Spec.shift
    split
    · rename_i h0
      simpa [h0] using h1
    · have := Lex.append (Lex.spaces (s := inc) (fun c hc => by rcases hinc c hc with rfl | rfl <;> decide)) h1
      simpa using this

theorem SeesAll.join {ls : List Str} {ev : List Event} (h : SeesAll ls ev) : Sees (Py.join ['\n'] ls) ev := by
  rw [← dropLine_flat]
  refine Lex.dropLine ?_
  induction h with
  | nil => exact .nil _
  | cons h1 _ ih =>
    have := Lex.append (Lex.append (Lex.nlOpt true) h1) ih
    simpa [flat] using this

mutual
theorem page_reads : ∀ d : Page, d.Ok M void env known → d.Safe env →
    SeesAll (d.lines (fun n => (void n).getD false) env) (d.events (fun n => (void n).getD false) env)
  | .nil, _, _ => by simp only [Page.lines, Page.events]; exact .nil
  | .cons m b rest, h, hs => by
    simp only [Page.Ok] at h
    simp only [Page.Safe] at hs
    simp only [Page.lines, Page.events]
    exact SeesAll.append (ev := []) (.blank m) ((pageBlock_reads b h.1 hs.1).append (page_reads rest h.2 hs.2))
theorem pageBlock_reads : ∀ d : PageBlock, d.Ok M void env known → d.Safe env →
    SeesAll (d.lines (fun n => (void n).getD false) env) (d.events (fun n => (void n).getD false) env)
  | .text c, _, hs => by
    simp only [PageBlock.Safe] at hs
    simp only [PageBlock.lines, PageBlock.events]
    exact .one (content_reads hs)
  | .inline es c, h, hs => by
    simp only [PageBlock.Ok] at h
    simp only [PageBlock.Safe] at hs
    simp only [PageBlock.lines, PageBlock.events]
    exact .one (Lex.append (starts_read h.1.all) (Lex.append (content_reads hs) (ends_read h.1.all)))
  | .empty es, h, _ => by
    simp only [PageBlock.Ok] at h
    simp only [PageBlock.lines, PageBlock.events]
    exact .one (empties_read _ h.all)
  | .nested es inc body, h, hs => by
    simp only [PageBlock.Ok] at h
    simp only [PageBlock.Safe] at hs
    have ih := page_reads body h.2.2.2.2 hs
    simp only [PageBlock.lines, PageBlock.events]
    generalize body.lines (fun n => (void n).getD false) env = ls at ih
    generalize body.events (fun n => (void n).getD false) env = ev at ih
    cases ih with
    | nil =>
      simp only [aroundLines, List.nil_append]
      rw [← emptyEvents_full (vd := fun n => (void n).getD false) h.1.full]
      exact .one (empties_read _ h.1.all)
    | cons h1 h2 =>
      exact .cons (starts_read h.1.all) (SeesAll.append ((SeesAll.cons h1 h2).shift h.2.1) (.one (ends_read h.1.all)))
  | .comment s, _, _ => by simp only [PageBlock.lines, PageBlock.events]; exact .nil
end

end
end Verif
