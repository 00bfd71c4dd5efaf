import Verif.Lemmas.Html

/-!
Properties C01-C07 and C42: escaping, attributes, markup structure, void elements, document root.
-/

namespace Verif
open Py Spec

/-- C01. Escaped text contains no active markup. -/
theorem C01_escape_safe (s : Str) : SafeText (htmlEscape s) := by
  rw [htmlEscape_eq]
  refine ⟨?_, ?_, ?_⟩
  · intro h
    obtain ⟨c, _, hc⟩ := List.mem_flatMap.1 h
    exact (mem_escChar hc).1 rfl
  · intro h
    obtain ⟨c, _, hc⟩ := List.mem_flatMap.1 h
    exact (mem_escChar hc).2 rfl
  · refine amp_flatMap escChar
      (fun post => (s!!"amp;") <+: post ∨ (s!!"lt;") <+: post ∨ (s!!"gt;") <+: post)
      ?_ (fun c pre post => escChar_amp) s
    intro a b h
    rcases h with h | h | h <;> have h' := h.trans (List.prefix_append a b) <;>
      simp only [h', true_or, or_true]

/-- The escape function does change texts. -/
example : htmlEscape (s!!"a<b>&lt;") = s!!"a&lt;b&gt;&amp;lt;" := by decide
/-- `SafeText` does exclude something: an unescaped ampersand. -/
example : ¬ SafeText (s!!"a&b") := fun h => by
  rcases h.2.2 ['a'] ['b'] rfl with h | h | h <;> obtain ⟨t, ht⟩ := h <;> simp at ht

/-- C02. Escaping is lossless. -/
theorem C02_escape_roundtrip (s : Str) : decodeText (htmlEscape s) = s := by
  rw [htmlEscape_eq]
  induction s with
  | nil => simp [decodeText]
  | cons c s ih => rw [List.flatMap_cons, decodeText_esc, ih]

/-- C02. Different texts have different escaped forms. -/
theorem C02_escape_injective (s t : Str) (h : htmlEscape s = htmlEscape t) : s = t := by
  rw [← C02_escape_roundtrip s, h, C02_escape_roundtrip]

example : htmlEscape (s!!"&lt;") ≠ htmlEscape (s!!"<") := by decide
example : decodeText (s!!"&amp;lt; 1 &lt; 2") = s!!"&lt; 1 < 2" := by decide

/-- C03. Attribute values cannot break out of their quotes. -/
theorem C03_attr_quoting_safe (v : Str) :
    ∃ q inner, quoteattr v = [q] ++ inner ++ [q] ∧ (q = '"' ∨ q = '\'') ∧ SafeAttrInner q inner := by
  obtain ⟨q, inner, h1, h2, h3, _⟩ := quoteattr_form v
  exact ⟨q, inner, h1, h2, h3⟩

example : quoteattr (s!!"say \"it's\" <b>") = s!!"\"say &quot;it's&quot; &lt;b&gt;\"" := by decide
example : quoteattr (s!!"say \"x\"") = s!!"'say \"x\"'" := by decide

/-- C04. A reader that strips the quotes (whatever they are) and decodes gets the value back. -/
theorem C04_attr_roundtrip (v : Str) :
    decodeAttr ((quoteattr v).drop 1).dropLast = v := by
  obtain ⟨q, inner, h1, _, _, h4⟩ := quoteattr_form v
  rw [h1]; simpa using h4

/-- C04. Different values have different quoted forms. -/
theorem C04_attr_injective (v w : Str) (h : quoteattr v = quoteattr w) : v = w := by
  rw [← C04_attr_roundtrip v, h, C04_attr_roundtrip]

example : decodeAttr ((quoteattr (s!!"a\n\"'&#10;")).drop 1).dropLast = s!!"a\n\"'&#10;" := by decide

theorem tokenize_of_lex {s : Str} {ev : List Event} (h : Lex .text s .text ev) :
    tokenize s = some ev := by
  simp [tokenize, h.state, h.events]

/-- C05. The element that a markup tag (with a body that renders to nothing) emits is read back as
its name and the given attributes, in order. -/
theorem C05_start_tag_parses_back (mode : Mode) (name : Str) (kw : List (Str × AttrVal))
    (hname : ValidName name) (hkw : ∀ a ∈ kw, ValidName a.1) :
    ∃ out, markupExpand false mode name (.ok []) [] kw = .ok out ∧
      tokenize out = some [.start name (seenAttrs mode kw), .close name] := by
  refine ⟨_, rfl, tokenize_of_lex ?_⟩
  have := Lex.element mode hname kw hkw (body := []) (ev := []) (Lex.nil _)
    (out := _) rfl
  simpa using this

/-- C05 for void elements. -/
theorem C05_void_tag_parses_back (mode : Mode) (name : Str) (kw : List (Str × AttrVal))
    (hname : ValidName name) (hkw : ∀ a ∈ kw, ValidName a.1) :
    ∃ out, markupExpand true mode name (.ok []) [] kw = .ok out ∧
      tokenize out = some [.void name (seenAttrs mode kw)] :=
  ⟨_, rfl, tokenize_of_lex (Lex.voidTag mode hname kw hkw)⟩

theorem validName_of_all {n : Str} (h : (!n.isEmpty && n.all isNameChar) = true) : ValidName n := by
  simp only [Bool.and_eq_true, Bool.not_eq_true', List.all_eq_true] at h
  exact ⟨by rintro rfl; simp at h, h.2⟩

example : ValidName (s!!"data-x:y_1") := validName_of_all (by decide)
example : tokenize (s!!"<a href='x\"y' checked title=\"&lt;\"></a>") =
    some [.start (s!!"a") [(s!!"href", some (s!!"x\"y")), (s!!"checked", none),
      (s!!"title", some (s!!"<"))], .close (s!!"a")] := by decide
example : markupExpand false .html (s!!"a") (.ok []) []
    [(s!!"href", .obj (s!!"x\"y")), (s!!"hidden", .bool false), (s!!"checked", .bool true)] =
    .ok (s!!"<a href='x\"y' checked></a>") := by decide
/-- The name condition is needed: an attribute name with a space would be read as two. -/
example : tokenize (s!!"<a x y></a>") =
    some [.start (s!!"a") [(s!!"x", none), (s!!"y", none)], .close (s!!"a")] := by decide

section
variable (ext : Nat → Except RenderErr Str → List AttrVal → List (Str × AttrVal) →
  Except RenderErr Str)

/-- C06. Whatever document is rendered from a well-formed DOM, its markup structure is the one of
the DOM. -/
theorem C06_structure (ns : List Node) (h : WellFormedAll ns) (out : Str)
    (ho : renderNodes ext ns = .ok out) : tokenize out = some (nodesEvents ns) :=
  tokenize_of_lex (lex_renderNodes ext ns h out ho)

/-- C06 for a document root. -/
theorem C06_structure_root (n : Node) (h : WellFormed n) (out : Str)
    (ho : renderNode ext n = .ok out) : tokenize out = some (nodeEvents n) :=
  tokenize_of_lex (lex_renderNode ext n h out ho)

mutual
/-- Nodes whose rendering cannot fail: no positional attributes on markup tags (exactly one, a
name, on custom tags), void elements with an empty body, no indentation starting with a newline. -/
def Renderable : Node → Prop
  | .mk cls tag attrs _ body _ indent =>
    (∀ i, indent = some i → i.take 1 ≠ ['\n']) ∧
    match cls with
    | .text _ => True
    | _ =>
      RenderableAll body ∧
      match tag with
      | some (.markup _ v _) => attrs.getD [] = [] ∧ (v = true → body = [])
      | some .custom => ∃ name, attrs = some [.obj name]
      | _ => True
/-- `Renderable` for a list of nodes. -/
def RenderableAll : List Node → Prop
  | [] => True
  | n :: ns => Renderable n ∧ RenderableAll ns
end

theorem applyIndent_total {i : Option Str} (h : ∀ j, i = some j → j.take 1 ≠ ['\n']) (s : Str) :
    ∃ t, applyIndent i s = .ok t := by
  cases i with
  | none => exact ⟨_, rfl⟩
  | some j =>
    have := h j rfl
    exact ⟨addIndent s j, by simp [applyIndent, this]⟩

mutual
theorem renderNode_total (n : Node) (hw : WellFormed n) (hr : Renderable n) :
    ∃ out, renderNode ext n = .ok out := by
  obtain ⟨cls, tag, attrs, kw, body, outline, indent⟩ := n
  simp only [WellFormed] at hw
  simp only [Renderable] at hr
  have key : ∃ inner, renderBody ext cls tag attrs kw (renderNodes ext body) = .ok inner := by
    unfold renderBody
    cases cls with
    | text s => exact ⟨s, rfl⟩
    | _ =>
      simp only at hw hr ⊢
      obtain ⟨b, hb⟩ := renderNodes_total body hw.2.2.1 hr.2.1
      rw [hb]
      cases tag with
      | none => exact ⟨b, rfl⟩
      | some t =>
        cases t with
        | markup name v mode =>
          simp only at hr
          cases v with
          | false => exact ⟨_, by simp only [expandTag, markupExpand, hr.2.2.1]; rfl⟩
          | true =>
            have := hr.2.2.2 rfl
            subst this
            simp [renderNodes] at hb
            subst hb
            exact ⟨_, by simp only [expandTag, markupExpand, hr.2.2.1]; rfl⟩
        | custom =>
          obtain ⟨nm, e⟩ := hr.2.2
          subst e
          exact ⟨_, rfl⟩
        | comment => exact hw.2.2.2.elim
        | null => exact ⟨b, rfl⟩
        | native _ => exact ⟨b, rfl⟩
        | ext _ _ => exact hw.2.2.2.elim
  obtain ⟨inner, hi⟩ := key
  obtain ⟨t, ht⟩ := applyIndent_total hr.1 ((if outline then ['\n'] else []) ++ inner)
  simp only [renderNode, hi, bind, Except.bind, ht]
  cases cls <;> exact ⟨_, rfl⟩
theorem renderNodes_total (ns : List Node) (hw : WellFormedAll ns) (hr : RenderableAll ns) :
    ∃ out, renderNodes ext ns = .ok out := by
  cases ns with
  | nil => exact ⟨_, rfl⟩
  | cons n ns =>
    simp only [WellFormedAll] at hw
    simp only [RenderableAll] at hr
    obtain ⟨a, ha⟩ := renderNode_total n hw.1 hr.1
    obtain ⟨b, hb⟩ := renderNodes_total ns hw.2 hr.2
    exact ⟨a ++ b, by simp [renderNodes, ha, hb, bind, Except.bind, pure, Except.pure]⟩
end

/-- C06. A well-formed DOM without misused tags is rendered, with exactly its own structure. -/
theorem C06_renders (ns : List Node) (hw : WellFormedAll ns) (hr : RenderableAll ns) :
    ∃ out, renderNodes ext ns = .ok out ∧ tokenize out = some (nodesEvents ns) := by
  obtain ⟨out, ho⟩ := renderNodes_total ext ns hw hr
  exact ⟨out, ho, C06_structure ext ns hw out ho⟩

end

/-- A sample DOM: an indented, outlined `<p>` with an attribute, hostile text (escaped), a void
element, and a null node with its own indentation. -/
def sampleDom : List Node :=
  [.mk .node (some (.markup (s!!"p") false .html)) (some [])
    (some [(s!!"title", .obj (s!!"a\"b\n<i>"))])
    [.mk (.text (htmlEscape (s!!"\nx</p>\n<b>"))) none none none [] true (some (s!!"    ")),
     .mk .node (some (.markup (s!!"br") true .html)) (some []) (some []) [] false none,
     .mk .node (some .null) none none
       [.mk (.text (htmlEscape (s!!"y&z"))) none none none [] true none] false (some (s!!"  "))]
    true (some (s!!"\t"))]

theorem sampleDom_wf : WellFormedAll sampleDom := by
  have hp : ValidName (s!!"p") := validName_of_all (by decide)
  have hbr : ValidName (s!!"br") := validName_of_all (by decide)
  have ht : ValidName (s!!"title") := validName_of_all (by decide)
  simp [sampleDom, WellFormedAll, WellFormed, SpaceIndent, C01_escape_safe, hp, hbr, ht]
  decide

example : WellFormedAll sampleDom ∧ RenderableAll sampleDom :=
  ⟨sampleDom_wf, by simp [sampleDom, RenderableAll, Renderable]⟩

/-- The text of the sample that looks like markup is seen as text. -/
example : nodesEvents sampleDom =
    [.start (s!!"p") [(s!!"title", some (s!!"a\"b\n<i>"))],
     .chr 'x', .chr '<', .chr '/', .chr 'p', .chr '>', .chr '<', .chr 'b', .chr '>',
     .void (s!!"br") [], .chr 'y', .chr '&', .chr 'z', .close (s!!"p")] := by decide

/-- C07. A void element renders iff its body renders to the empty string; a non-empty body raises
`VoidTagEx`, an exception of the body is passed on. -/
theorem C07_void (mode : Mode) (name : Str) (body : Except RenderErr Str)
    (kw : List (Str × AttrVal)) :
    ((∃ out, markupExpand true mode name body [] kw = .ok out) ↔ body = .ok []) ∧
    (∀ b, body = .ok b → b ≠ [] → markupExpand true mode name body [] kw = .error .voidTag) ∧
    (∀ e, body = .error e → markupExpand true mode name body [] kw = .error e) := by
  refine ⟨?_, ?_, ?_⟩
  · cases body with
    | error e => simp [markupExpand, markupExpand', bind, Except.bind]
    | ok b =>
      by_cases hb : b = []
      · subst hb; simp [markupExpand, markupExpand', bind, Except.bind, pure, Except.pure]
      · simp [markupExpand, markupExpand', bind, Except.bind, hb]
  · rintro b rfl hb
    simp [markupExpand, markupExpand', bind, Except.bind, hb]; rfl
  · rintro e rfl
    simp [markupExpand, markupExpand', bind, Except.bind]

/-- C07. Positional attributes on a markup tag always raise. -/
theorem C07_positional (void : Bool) (mode : Mode) (name : Str) (body : Except RenderErr Str)
    (attrs : List AttrVal) (kw : List (Str × AttrVal)) (h : attrs ≠ []) :
    markupExpand void mode name body attrs kw = .error .typeError := by
  simp [markupExpand, h]; rfl

/-- C07 in a document: if a void element with a non-empty rendering of its body occurs anywhere at
the front of a DOM, no document is produced. -/
theorem C07_no_document
    (ext : Nat → Except RenderErr Str → List AttrVal → List (Str × AttrVal) → Except RenderErr Str)
    (before after : List Node) (name : Str) (mode : Mode) (kw : Option (List (Str × AttrVal)))
    (body : List Node) (outline : Bool) (indent : Option Str) (b : Str)
    (hb : renderNodes ext body = .ok b) (hne : b ≠ []) (out : Str) :
    renderNodes ext (before ++
      .mk .node (some (.markup name true mode)) none kw body outline indent :: after) ≠ .ok out := by
  induction before generalizing out with
  | nil =>
    have hv := (C07_void mode name (.ok b) (kw.getD [])).2.1 b rfl hne
    simp [renderNodes, renderNode, renderBody, expandTag, hb, hv, bind, Except.bind]
  | cons n ns ih =>
    intro h
    simp only [List.cons_append, renderNodes, Except.bind_eq_ok] at h
    obtain ⟨_, _, r, h2, _⟩ := h
    exact ih r h2

example : markupExpand true .html (s!!"br") (.ok (s!!"x")) [] [] = .error .voidTag := by decide
example : markupExpand true .html (s!!"img") (.ok []) [] [(s!!"src", .obj (s!!"a.png"))] =
    .ok (s!!"<img src=\"a.png\" />") := by decide

/-- C42. Rendering a document root (as the translator creates it: no tag, no outline, no
indentation) equals rendering its body minus one leading newline, if there is one. -/
theorem C42_one_newline_dropped
    (ext : Nat → Except RenderErr Str → List AttrVal → List (Str × AttrVal) → Except RenderErr Str)
    (body : List Node) (attrs : Option (List AttrVal)) (kw : Option (List (Str × AttrVal))) :
    renderNode ext (.mk .root none attrs kw body false none) =
      match renderNodes ext body with
      | .ok ('\n' :: s) => .ok s
      | r => r := by
  simp only [renderNode, renderBody]
  cases h : renderNodes ext body with
  | error e => simp [bind, Except.bind]
  | ok s =>
    cases s with
    | nil => simp [bind, Except.bind, applyIndent, pure, Except.pure, dropLine, startsWith]
    | cons c s =>
      by_cases hc : c = '\n'
      · subst hc
        simp [bind, Except.bind, applyIndent, pure, Except.pure, dropLine, startsWith]
      · have : ¬ '\n' = c := fun e => hc e.symm
        simp [bind, Except.bind, applyIndent, pure, Except.pure, dropLine, startsWith, this, hc]

example : renderNode (fun _ _ _ _ => .ok []) (.mk .root none none none
    [.mk (.text (s!!"\n\n a")) none none none [] false none] false none) = .ok (s!!"\n a") := by
  decide

end Verif
