import Verif.Lemmas.Lines

/-! Properties C08-C12: adding, detecting and removing indentation. -/

namespace Verif
open Py Spec

/-- C08. Indenting shifts exactly the non-empty lines after the first one; the number of lines is
kept (`mapTail` keeps the length, see `C08_line_count`). -/
theorem C08_addIndent_lines (text ind : Str) (h : '\n' ∉ ind) :
    lines (addIndent text ind) =
      mapTail (fun l => if l = [] then [] else ind ++ l) (lines text) :=
  lines_addIndent text ind h

/-- C08. The number of lines is kept. -/
theorem C08_line_count (text ind : Str) (h : '\n' ∉ ind) :
    (lines (addIndent text ind)).length = (lines text).length := by
  rw [lines_addIndent text ind h, mapTail_length]

example : addIndent (s!!"a\nb\n\n  c\n") (s!!"  ") = s!!"a\n  b\n\n    c\n" := by decide
example : lines (s!!"a\nb\n\n  c\n") = [s!!"a", s!!"b", [], s!!"  c", []] := by decide

/-- C09. Indenting by `a` and then by `b` is indenting by `b ++ a`. -/
theorem C09_addIndent_comp (text a b : Str) (ha : '\n' ∉ a) (hb : '\n' ∉ b) :
    addIndent (addIndent text a) b = addIndent text (b ++ a) := by
  apply lines_inj
  rw [lines_addIndent _ _ hb, lines_addIndent _ _ ha, lines_addIndent _ _ (by simp [ha, hb])]
  cases lines text with
  | nil => rfl
  | cons l ls =>
    simp only [mapTail, List.map_map, List.cons.injEq, true_and]
    apply List.map_congr_left
    intro m _
    simp only [Function.comp, shift]
    by_cases h : m = [] <;> simp [h]

/-- C09. Any number of enclosing indentations, innermost first: each line gets the concatenation of
all of them, outermost first. -/
theorem C09_nested (text : Str) (inds : List Str) (h : ∀ i ∈ inds, '\n' ∉ i) :
    inds.foldl addIndent text = addIndent text inds.reverse.flatten := by
  induction inds generalizing text with
  | nil => simp [addIndent]
  | cons i inds ih =>
    have hr : '\n' ∉ inds.reverse.flatten := by
      simp only [List.mem_flatten, not_exists, not_and]
      intro l hl; exact h l (by simp at hl; simp [hl])
    rw [List.foldl_cons, ih _ (fun j hj => h j (by simp [hj])),
      C09_addIndent_comp _ _ _ (h i (by simp)) hr]
    simp

example : [s!!"  ", s!!"\t"].foldl addIndent (s!!"a\nb") = s!!"a\n\t  b" := by decide

/-- C10. The detected indentation is a whitespace prefix of all non-blank lines, and is the longest
such string. -/
theorem C10_getIndent_longest (text : Str) :
    CommonIndent text (getIndent text) ∧
    ((∃ l ∈ lines text, NonBlank l) →
      ∀ w, CommonIndent text w → w.length ≤ (getIndent text).length) :=
  ⟨(getIndent_spec text).1, (getIndent_spec text).2.1⟩

/-- C10. A text without non-blank lines has no indentation. -/
theorem C10_getIndent_blank (text : Str) (h : ∀ l ∈ lines text, ¬ NonBlank l) :
    getIndent text = [] := (getIndent_spec text).2.2 h

/-- C10, uniqueness: the two clauses determine the indentation of a text with a non-blank line. -/
theorem C10_getIndent_unique (text w : Str) (hne : ∃ l ∈ lines text, NonBlank l)
    (h1 : CommonIndent text w) (h2 : ∀ v, CommonIndent text v → v.length ≤ w.length) :
    w = getIndent text := by
  obtain ⟨g1, g2⟩ := C10_getIndent_longest text
  have e : w.length = (getIndent text).length := by
    have := g2 hne w h1; have := h2 _ g1; omega
  obtain ⟨l, hl, hn⟩ := hne
  have p1 := h1.2 l hl hn
  have p2 := g1.2 l hl hn
  rw [List.prefix_iff_eq_take] at p1 p2
  rw [p1, p2, e]

example : getIndent (s!!"\n   a\n\n     b\n  \t") = s!!"   " := by decide
example : ∃ l ∈ lines (s!!"\n   a\n\n     b\n  \t"), NonBlank l := by decide
example : getIndent (s!!" \n\t\n") = [] := by decide

/-- C11. Removing the common indentation keeps the number of lines; every non-blank line loses
exactly the common indentation; a blank line loses it if it starts with it, and is kept otherwise. -/
theorem C11_delIndent_lines (text : Str) :
    (lines (delIndent text)).length = (lines text).length ∧
    (∀ (k : Nat) (l : Str), (lines text)[k]? = some l → NonBlank l →
      ∃ r, l = getIndent text ++ r ∧ (lines (delIndent text))[k]? = some r) ∧
    (∀ (k : Nat) (l : Str), (lines text)[k]? = some l → ¬ NonBlank l →
      (lines (delIndent text))[k]? = some l ∨
      ∃ r, l = getIndent text ++ r ∧ (lines (delIndent text))[k]? = some r) := by
  have hw := getIndent_no_newline text
  unfold delIndent
  rw [lines_delIndentBy text _ hw]
  refine ⟨by simp, ?_, ?_⟩
  · intro k l hk hn
    have hp := (getIndent_spec text).1.2 l (List.mem_of_getElem? hk) hn
    obtain ⟨r, rfl⟩ := hp
    exact ⟨r, rfl, by simp [hk, unshift]⟩
  · intro k l hk hn
    by_cases hp : getIndent text <+: l
    · obtain ⟨r, rfl⟩ := hp
      exact Or.inr ⟨r, rfl, by simp [hk, unshift]⟩
    · exact Or.inl (by simp [hk, unshift, hp])

/-- C11. After removal no common indentation is left. -/
theorem C11_getIndent_delIndent (text : Str) : getIndent (delIndent text) = [] := by
  have hw := getIndent_no_newline text
  obtain ⟨⟨g1, g2⟩, g3, _⟩ := getIndent_spec text
  have hlines : lines (delIndent text) = (lines text).map (unshift (getIndent text)) :=
    lines_delIndentBy text _ hw
  obtain ⟨⟨d1, d2⟩, _, d4⟩ := getIndent_spec (delIndent text)
  by_cases h : ∃ l ∈ lines text, NonBlank l
  · have hc : CommonIndent text (getIndent text ++ getIndent (delIndent text)) := by
      refine ⟨?_, ?_⟩
      · intro c hc
        rcases List.mem_append.1 hc with hc | hc
        · exact g1 c hc
        · exact d1 c hc
      · intro l hl hn
        obtain ⟨r, rfl⟩ := g2 l hl hn
        have hr : r ∈ lines (delIndent text) := by
          rw [hlines]
          exact List.mem_map.2 ⟨_, hl, by simp [unshift]⟩
        have hrn : NonBlank r := by
          obtain ⟨c, hc, hs⟩ := hn
          rcases List.mem_append.1 hc with hc | hc
          · rw [g1 c hc] at hs; cases hs
          · exact ⟨c, hc, hs⟩
        obtain ⟨t, rfl⟩ := d2 r hr hrn
        exact ⟨t, by simp⟩
    have := g3 h _ hc
    simp only [List.length_append] at this
    exact List.length_eq_zero_iff.1 (by omega)
  · apply d4
    intro r hr hn
    rw [hlines] at hr
    obtain ⟨l, hl, rfl⟩ := List.mem_map.1 hr
    apply h
    refine ⟨l, hl, ?_⟩
    obtain ⟨c, hc, hs⟩ := hn
    refine ⟨c, ?_, hs⟩
    unfold unshift at hc
    split at hc
    · exact List.mem_of_mem_drop hc
    · exact hc

/-- C11. Removing again changes nothing. -/
theorem C11_delIndent_idempotent (text : Str) : delIndent (delIndent text) = delIndent text := by
  have h := C11_getIndent_delIndent text
  apply lines_inj
  conv_lhs => rw [delIndent, h, lines_delIndentBy _ _ (by simp)]
  have : unshift [] = id := by funext l; simp [unshift]
  simp [this]

example : delIndent (s!!"  a\n    b\n \n  \n  c") = s!!"a\n  b\n \n\nc" := by decide

/-- C12. Indenting and then removing the same indentation gives back any text with an empty first
line. -/
theorem C12_indent_dedent (text ind : Str) (hn : '\n' ∉ ind)
    (h : (lines text).head? = some []) : delIndentBy (addIndent text ind) ind = text := by
  apply lines_inj
  rw [lines_delIndentBy _ _ hn, lines_addIndent _ _ hn]
  cases hl : lines text with
  | nil => exact absurd hl (lines_ne_nil _)
  | cons l ls =>
    rw [hl] at h
    simp at h
    subst h
    simp only [mapTail, List.map_cons, List.map_map, List.cons.injEq]
    refine ⟨by simp [unshift], ?_⟩
    conv_rhs => rw [← List.map_id ls]
    apply List.map_congr_left
    intro m _
    simp only [Function.comp, shift, id]
    split
    · simp_all [unshift]
    · simp [unshift]

example : (lines (s!!"\na\n\n b")).head? = some [] ∧
    addIndent (s!!"\na\n\n b") (s!!"  ") = s!!"\n  a\n\n   b" := by decide
/-- The condition on the first line is needed: it is not indented but would be "dedented". -/
example : delIndentBy (addIndent (s!!"  a") (s!!"  ")) (s!!"  ") ≠ s!!"  a" := by decide

end Verif
