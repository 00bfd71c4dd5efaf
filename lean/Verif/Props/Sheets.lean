import Verif.Lemmas.SheetDocument
import Verif.Props.Templates

/-! Property C98: the layout of documents: modifiers, mixed bodies, the tag `.` and `pass`. -/

namespace Verif
open Py Spec

section
variable {P X W I : Type}

/-- C98. The script of a template with elements, texts, mixed bodies, control blocks and modifiers, of any size and nesting, is loaded, analysed,
translated and rendered to the text that the template stands for, with its newlines and its indentation: blocks begin on new lines,
except those after `...`, and are indented under their elements, except those after `<`. -/
theorem C98_layout (M : Marks) (U : Uni) [MarksApart M U] (names : Str → Option Char) (E : Env P X W) (hE : Escaping E.ops)
    (D : PyData E.ops E.fuel) (σ : StateId) (src : Source P I) (first : Slot) (tagOf : P → TagObj) (strOf : Val P → Str)
    (ext : Nat → Except RenderErr Str → List AttrVal → List (Str × AttrVal) → Except RenderErr Str)
    (globals : Dict Str (Val P)) (hg : GoodGlobals globals) (void : Str → Option Bool) (ht : KnownTags E.ops tagOf globals void)
    (Γ : Str → Prop) (ρ : Vars) (hx : KnownData D globals ρ Γ) (T : Sheet) (hT : T.Ok M void Γ) (hok : ItemsOk T.items) (hne : T.items ≠ [])
    (t : Str) (ho : T.text (fun n => (void n).getD false) ρ = some t) (Mm : Machine P W) (hi : (Mm.states σ).indentation = ['\n']) :
    ∃ ss doc root syms M' node, loadScript M U names (itemText T.items) = .ok ss ∧ analyseDocument src first globals ss = .ok doc ∧
      translDocument E σ doc Mm = (.ok (root, syms), M') ∧ Unfolds tagOf strOf M'.mem.nodes root node ∧
      renderNode ext node = .ok t := by
  unfold Sheet.text at ho
  obtain ⟨xs, h1, rfl⟩ := Option.map_eq_some_iff.1 ho
  exact sheet_document hE.html hg.1 hg.2 hi ht hx hT hok hne h1

end

/-! ### What the text of a template is -/

/-- The block is a text, or elements with what they contain. -/
def Spec.SheetBlock.Solid : SheetBlock → Prop
  | .text _ | .inline _ _ | .empty _ | .nested _ _ _ | .mixed _ _ _ _ => True
  | _ => False

/-- The document with this block only. -/
def Spec.SheetBlock.alone (void : Str → Bool) (ρ : Vars) (b : SheetBlock) : Option Str := (Sheet.cons 0 none b .nil).text void ρ

theorem indentText_none (t : Str) : indentText [] t = t := indentText_nil t

theorem solid_part {void : Str → Bool} {ρ : Vars} {b : SheetBlock} (hb : b.Solid) {xs : List Span} (h : b.out void ρ = some xs) :
    ∃ s, xs = [.part false false s] := by
  cases b <;> simp only [SheetBlock.Solid] at hb <;> rw [SheetBlock.out] at h <;>
    simp only [Option.ite_none_right_eq_some, Option.map_eq_some_iff, Option.some.injEq] at h
  · exact ⟨_, h.2.symm⟩
  · exact ⟨_, h.2.symm⟩
  · exact ⟨_, h.2.symm⟩
  · obtain ⟨_, _, _, h⟩ := h; exact ⟨_, h.symm⟩
  · obtain ⟨_, _, _, h⟩ := h; exact ⟨_, h.symm⟩

theorem solid_after {ρ : Vars} {b : SheetBlock} (hb : b.Solid) : b.after ρ = ρ := by
  cases b <;> first | rfl | cases hb

theorem alone_solid {void : Str → Bool} {ρ : Vars} {b : SheetBlock} (hb : b.Solid) {s : Str} :
    b.alone void ρ = some s ↔ b.out void ρ = some [.part false false s] := by
  unfold SheetBlock.alone Sheet.text
  rw [Sheet.out]
  simp only [Sheet.out, Option.map_some, Option.map_eq_some_iff, Option.bind_eq_some_iff, Option.some.injEq, blank, Spec.modify, List.nil_append, List.append_nil]
  constructor
  · rintro ⟨_, ⟨xs, h1, rfl⟩, rfl⟩
    obtain ⟨s, rfl⟩ := solid_part hb h1
    rw [h1]
    simp [startLine, Span.newLine, spansText, Span.text, newline?, indentText_none, withoutFirst]
  · intro h
    exact ⟨_, ⟨_, h, rfl⟩, by simp [startLine, Span.newLine, spansText, Span.text, newline?, indentText_none, withoutFirst]⟩

/-- C98. A text or an element after `...` is appended to the text or the element before it: the document is one document after the other. -/
theorem C98_append (void : Str → Bool) (ρ : Vars) (b b' : SheetBlock) (hb : b.Solid) (hb' : b'.Solid) (s s' : Str)
    (h : b.alone void ρ = some s) (h' : b'.alone void ρ = some s') :
    (Sheet.cons 0 none b (.cons 0 (some .append) b' .nil)).text void ρ = some (s ++ s') := by
  rw [alone_solid hb] at h
  rw [alone_solid hb'] at h'
  unfold Sheet.text
  rw [Sheet.out, Sheet.out, Sheet.out, h, solid_after hb]
  simp only [Option.bind_some, h', Option.map_some, blank, Spec.modify, List.nil_append, List.append_nil, startLine, Span.newLine, List.cons_append, spansText,
    List.flatMap_cons, List.flatMap_nil, Span.text, newline?, indentText_none]
  simp [withoutFirst]

/-- C98. Without a modifier, it begins on a new line. -/
theorem C98_line (void : Str → Bool) (ρ : Vars) (b b' : SheetBlock) (hb : b.Solid) (hb' : b'.Solid) (s s' : Str)
    (h : b.alone void ρ = some s) (h' : b'.alone void ρ = some s') :
    (Sheet.cons 0 none b (.cons 0 none b' .nil)).text void ρ = some (s ++ '\n' :: s') := by
  rw [alone_solid hb] at h
  rw [alone_solid hb'] at h'
  unfold Sheet.text
  rw [Sheet.out, Sheet.out, Sheet.out, h, solid_after hb]
  simp only [Option.bind_some, h', Option.map_some, blank, Spec.modify, List.nil_append, List.append_nil, startLine, Span.newLine, List.cons_append, spansText,
    List.flatMap_cons, List.flatMap_nil, Span.text, newline?, indentText_none]
  simp [withoutFirst]

/-- C98. The tag `.` before a text changes nothing. -/
theorem C98_null_tag (void : Str → Bool) (ρ : Vars) (c : Content) (m : Nat) (mo : Option Modifier) (rest : Sheet) :
    (Sheet.cons m mo (.inline [] c) rest).text void ρ = (Sheet.cons m mo (.text c) rest).text void ρ := by
  unfold Sheet.text
  rw [Sheet.out, Sheet.out, SheetBlock.out, SheetBlock.out]
  have : ρ.opens [] = true := rfl
  simp [around, SheetBlock.after, this]

/-- C98. `pass` changes nothing, whatever its modifier is. -/
theorem C98_pass (void : Str → Bool) (ρ : Vars) (mo : Option Modifier) (rest : Sheet) :
    (Sheet.cons 0 mo .pass rest).text void ρ = rest.text void ρ := by
  unfold Sheet.text
  rw [Sheet.out, SheetBlock.out]
  have e : Spec.modify mo [] = [] := by rcases mo with _ | _ | _ <;> rfl
  simp [e, SheetBlock.after, blank]

/-- C98. The body of an element, if it begins with a text or an element after `...`, is on the line of the element. -/
theorem C98_inline_body (void : Str → Bool) (ρ : Vars) (es : List Elem) (inc : Str) (b : SheetBlock) (hb : b.Solid) (s : Str) (he : ρ.opens es = true)
    (hne : es ≠ []) (h : b.alone void ρ = some s) (hs : '\n' ∉ s) (hs' : s ≠ []) :
    (SheetBlock.nested es inc (.cons 0 (some .append) b .nil)).alone void ρ = some (startTags ρ.env es ++ (s ++ endTags es)) := by
  rw [alone_solid hb] at h
  rw [alone_solid (by trivial), SheetBlock.out, if_pos he, Sheet.out, Sheet.out, h]
  have e : indentText inc s = s := by
    unfold indentText
    rw [lines_unique s [s] (by simp) (by simpa using hs) (by simp [join])]
    simp [mapTail, join]
  have e2 : (s.head? == some '\n') = false := by
    cases s with
    | nil => rfl
    | cons c s =>
      simp only [List.mem_cons, not_or] at hs
      simpa using Ne.symm hs.1
  have e3 : s.head? ≠ some '\n' := by simpa using e2
  simp [blank, Spec.modify, spansText, Span.text, newline?, e, around, hne, hs', e3]

/-! ### An example -/

section
attribute [local instance] defaultMarks_apart

/-- The script of the example:

    p: | {x}
      ... p | a
      < p
        | b
      . | c
      for r in rows
        < p | {r.id}
      pass

      < if rows
        | d
    p
      ... | e
    ... | f
-/
def exSheet : Sheet :=
  .cons 0 none (.mixed [⟨s!!"p", []⟩] (.normal [.expr (s!!"x")]) (s!!"  ")
    (.cons 0 (some .append) (.inline [⟨s!!"p", []⟩] (.normal [.lit (s!!"a")]))
    (.cons 0 (some .dedent) (.nested [⟨s!!"p", []⟩] (s!!"  ") (.cons 0 none (.text (.normal [.lit (s!!"b")])) .nil))
    (.cons 0 none (.inline [] (.normal [.lit (s!!"c")]))
    (.cons 0 none (.loop (s!!"r") (s!!"rows") (s!!"  ") (.cons 0 (some .dedent) (.inline [⟨s!!"p", []⟩] (.normal [.expr (s!!"r.id")])) .nil))
    (.cons 0 none .pass
    (.cons 1 (some .dedent) (.cond (.holds (s!!"rows")) (s!!"  ") (.cons 0 none (.text (.normal [.lit (s!!"d")])) .nil) .none) .nil)))))))
  (.cons 0 none (.nested [⟨s!!"p", []⟩] (s!!"  ") (.cons 0 (some .append) (.text (.normal [.lit (s!!"e")])) .nil))
  (.cons 0 (some .append) (.text (.normal [.lit (s!!"f")])) .nil))

/-- Its script. -/
def exSheetText : Str := s!!"p: | {x}\n  ... p | a\n  < p\n    | b\n  . | c\n  for r in rows\n    < p | {r.id}\n  pass\n\n  < if rows\n    | d\np\n  ... | e\n... | f"

example : itemText exSheet.items = exSheetText := by decide +kernel

/-- Its text. The elements of the loop are indented: inside a control block, `<` has no effect. -/
def exSheetHtml : Str := s!!"<p>&lt;/p&gt;&amp;<p>a</p>\n<p>\n  b\n</p>\n  c\n  <p>7</p>\n  <p>8</p>\n\nd</p>\n<p>e</p>f"

example : exSheet.text (fun n => (exVoid n).getD false) exVars = some exSheetHtml := by decide +kernel

theorem exSheet_ok : exSheet.Ok defaultMarks exVoid exScope := by
  have hp : ∀ Γ, TagsOk defaultMarks exVoid Γ false [⟨s!!"p", []⟩] := fun Γ =>
    .inr ⟨⟨exTag_p, by simp, by simp, by simp⟩, false, rfl, fun _ => rfl⟩
  have h0 : ∀ Γ, TagsOk defaultMarks exVoid Γ false [] := fun Γ => .inl rfl
  have hb : Blanks (s!!"  ") := by unfold Blanks; decide
  simp only [exSheet, Sheet.Ok, SheetBlock.Ok, SheetElse.Ok, SheetBlock.scope, Sheet.items, TestOk, and_true, ne_eq, reduceCtorEq,
    not_false_eq_true, true_and, hp, h0, hb]
  refine ⟨⟨⟨⟨exPath (exVarName (by decide)) (.inl rfl), by decide, by decide, trivial⟩, by decide⟩, ⟨⟨by decide, trivial⟩, by decide⟩, ⟨⟨by decide, trivial⟩, by decide⟩,
    ⟨⟨by decide, trivial⟩, by decide⟩, ⟨exPath (exVarName (by decide)) (.inr (.inl rfl)), exVarName (by decide), ?_, ⟨?_, by decide, by decide, trivial⟩, by decide⟩,
    exPath (exVarName (by decide)) (.inr (.inl rfl)), ⟨by decide, trivial⟩, by decide⟩, ⟨⟨by decide, trivial⟩, by decide⟩, ⟨by decide, trivial⟩, by decide⟩
  · unfold exScope; decide
  · exact ⟨s!!"r", [s!!"id"], rfl, exVarName (by decide), .inl rfl, by
      simp only [List.mem_singleton, forall_eq]
      exact (exVarName (by decide)).toName⟩

theorem exSheet_items : ItemsOk exSheet.items := by
  have : ∀ t, TrimmedLine t ↔ (t ≠ [] ∧ strip t = t ∧ '\n' ∉ t) := fun t =>
    ⟨fun h => ⟨h.1, h.2, h.3⟩, fun h => ⟨h.1, h.2.1, h.2.2⟩⟩
  simp [exSheet, Sheet.items, SheetBlock.source, SheetBlock.under, SheetElse.items, ItemsOk, Item.Ok, this, Item.isGroup]
  repeat' apply And.intro
  all_goals decide

/-- The script is rendered to its text. -/
example (src : Source Toy.Obj Unit) : ∃ ss doc root syms M' node,
    loadScript defaultMarks asciiUni (fun _ => none) exSheetText = .ok ss ∧ analyseDocument src 0 exDataGlobals ss = .ok doc ∧
    translDocument exDataEnv 0 doc (Toy.machine []) = (.ok (root, syms), M') ∧ Unfolds exTagOf (fun _ => []) M'.mem.nodes root node ∧
    renderNode (fun _ _ _ _ => .ok []) node = .ok exSheetHtml :=
  C98_layout defaultMarks asciiUni (fun _ => none) exDataEnv ⟨_, rfl, fun _ _ => rfl⟩ toyPyData 0 src 0 exTagOf (fun _ => []) (fun _ _ _ _ => .ok [])
    exDataGlobals ⟨by decide, by decide⟩ exVoid
    (by
      intro n v h
      unfold exVoid at h
      split at h
      · next e => subst e; cases h; exact ⟨.tag 0, rfl, rfl, rfl⟩
      · split at h
        · next e => subst e; cases h; exact ⟨.tag 1, rfl, rfl, rfl⟩
        · cases h) exScope exVars exData_known exSheet exSheet_ok exSheet_items (by simp [exSheet, Sheet.items]) _ (by decide +kernel) (Toy.machine []) rfl

/-- `...` before a control block has no effect on the blocks inside, which begin on new lines unless `...` is before them too. -/
example : exText exDataGlobals (s!!"| a\n... if \"x\"\n  | b") = some (s!!"a\nb") ∧
    exText exDataGlobals (s!!"| a\n... if \"x\"\n  ... | b") = some (s!!"ab") ∧ exText exDataGlobals (s!!"| a\nif \"x\"\n  ... | b") = some (s!!"a\nb") := by
  decide +kernel

/-- `<` before a control block moves the blocks inside; inside a control block it has no effect. -/
example : exText exDataGlobals (s!!"p\n  < if \"x\"\n    | b") = some (s!!"<p>\nb\n</p>") ∧
    exText exDataGlobals (s!!"p\n  if \"x\"\n    < | b") = some (s!!"<p>\n  b\n</p>") := by
  decide +kernel

/-- After an empty line, a block after `...` begins on a new line, but is not indented. -/
example : exText exDataGlobals (s!!"p\n  | a\n\n  ... | b") = some (s!!"<p>\n  a\nb\n</p>") := by
  decide +kernel

end
end Verif
