import Verif.Lemmas.PageEvents
import Verif.Lemmas.TemplateDocument
import Verif.Spec.Toy

/-! Properties C79 and C80: templates of pages and the documents they are rendered to. -/

namespace Verif
open Py Spec

section
variable {P X W I : Type}

/-- The function that escapes texts computes `htmlEscape`, without side effects. -/
def Escaping (ops : PyOps P X W) : Prop := ∃ f, ops.escape = some f ∧ ∀ s m, f s m = .ret (htmlEscape s) m

/-- The value is printed as `s`: it is a string, or an object whose `str` and `bool` have no side effects. -/
def PrintedAs (ops : PyOps P X W) (v : Val P) (s : Str) : Prop :=
  v = .str s ∨ ∃ p t, v = .py p ∧ (∀ m, ops.str v m = .ret s m) ∧ ∀ m, ops.truth p m = .ret t m

/-- The expression is a variable whose value is printed as `env` says. -/
def KnownVar (ops : PyOps P X W) (globals : Dict Str (Val P)) (env : Str → Str) (x : Str) : Prop :=
  VarName x ∧ ∃ v, Dict.get? globals ('$' :: x) = some v ∧ PrintedAs ops v (env x)

/-- The names of elements (with `true` for void ones) are bound to tags of HTML. -/
def KnownTags (ops : PyOps P X W) (tagOf : P → TagObj) (globals : Dict Str (Val P)) (void : Str → Option Bool) : Prop :=
  ∀ n v, void n = some v → ∃ p, Dict.get? globals ('%' :: n) = some (.py p) ∧ ops.isTag p = true ∧ tagOf p = .markup n v .html

/-- Symbols of the initial context: `%tag` and `$variable`, each once. -/
def GoodGlobals (globals : Dict Str (Val P)) : Prop := (∀ x ∈ globals, validSymbol x.1 = true) ∧ (Dict.keys globals).Nodup

theorem Escaping.html {E : Env P X W} (h : Escaping E.ops) : EscapesHtml E := by
  obtain ⟨f, h1, h2⟩ := h
  exact ⟨f, h1, fun s A => runPy_evals (w := A.world) (fun m hm => by rw [h2, ← hm])⟩

theorem PrintedAs.truth {ops : PyOps P X W} {v : Val P} {s : Str} (h : PrintedAs ops v s) : ∃ t, PrintedTruth ops v t s := by
  rcases h with rfl | ⟨p, t, rfl, h1, h2⟩
  · exact ⟨_, .inl ⟨rfl, rfl⟩⟩
  · exact ⟨t, .inr ⟨p, rfl, h1, h2⟩⟩

/-! ### C79: the document of a page -/

/-- C79. The template of a page, of any size and nesting, is loaded, analysed, translated and rendered to the
markup of the page: each element around its contents, on the lines and at the indentation of the template, with
the values of variables escaped in texts and quoted in attributes. -/
theorem C79_page (M : Marks) (U : Uni) [MarksApart M U] (names : Str → Option Char) (E : Env P X W) (hE : Escaping E.ops)
    (σ : StateId) (src : Source P I) (first : Slot) (tagOf : P → TagObj) (strOf : Val P → Str)
    (ext : Nat → Except RenderErr Str → List AttrVal → List (Str × AttrVal) → Except RenderErr Str)
    (globals : Dict Str (Val P)) (hg : GoodGlobals globals) (void : Str → Option Bool) (ht : KnownTags E.ops tagOf globals void)
    (env : Str → Str) (d : Page) (hd : d.Ok M void env (KnownVar E.ops globals env)) (hok : ItemsOk d.items) (hne : d.items ≠ [])
    (Mm : Machine P W) (hi : (Mm.states σ).indentation = ['\n']) :
    ∃ ss doc root syms M' node, loadScript M U names (itemText d.items) = .ok ss ∧ analyseDocument src first globals ss = .ok doc ∧
      translDocument E σ doc Mm = (.ok (root, syms), M') ∧ Unfolds tagOf strOf M'.mem.nodes root node ∧
      renderNode ext node = .ok (join ['\n'] (d.lines (fun n => (void n).getD false) env)) := by
  classical
  have hch : ∀ y, ∃ t, KnownVar E.ops globals env y → ∃ v, Dict.get? globals ('$' :: y) = some v ∧ PrintedTruth E.ops v t (env y) := by
    intro y
    by_cases h : KnownVar E.ops globals env y
    · obtain ⟨-, v, h1, h2⟩ := h
      obtain ⟨t, h3⟩ := h2.truth
      exact ⟨t, fun _ => ⟨v, h1, h3⟩⟩
    · exact ⟨false, fun h' => absurd h' h⟩
  obtain ⟨tr, htr⟩ := Classical.axiomOfChoice hch
  let ρ : Vars := fun y => some (.atom (tr y) (env y))
  have hp : ∀ x, KnownVar E.ops globals env x → PathOk (KnownVar E.ops globals env) x :=
    fun x h => ⟨x, [], by simp, h.1, h, by simp⟩
  have hρ : ∀ x, KnownVar E.ops globals env x → ρ.text x = some (env x) := by
    intro x h
    have := value_path (ρ := ρ) (v := x) (ns := []) h.1 (by simp)
    simp only [List.flatMap_nil, List.append_nil] at this
    unfold Vars.text
    rw [this]; rfl
  obtain ⟨cs, ho, hl⟩ := page_tmpl_out hρ (fun n => (void n).getD false) d hd
  have hx : ∀ y, KnownVar E.ops globals env y → ∃ v d, Dict.get? globals ('$' :: y) = some v ∧ ρ y = some d ∧
      (printedData E.ops E.fuel).rep v d := by
    intro y hy
    obtain ⟨v, h1, h2⟩ := htr y hy
    exact ⟨v, _, h1, rfl, _, _, rfl, h2⟩
  have := template_document (D := printedData E.ops E.fuel) (names := names) (strOf := strOf) (ext := ext) (src := src) (U := U) hE.html
    (first := first) hg.1 hg.2 hi ht hx (page_tmpl_ok d (hd.mono hp)) (by rw [page_tmpl_items]; exact hok) (by rw [page_tmpl_items]; exact hne) ho
  rw [page_tmpl_items, hl] at this
  exact this

/-! ### C80: its structure does not depend on values -/

/-- C80. A reader of the document sees exactly the elements of the template, in its order, with the values of
variables as values of attributes and as characters of texts: whatever the values are, they do not add, remove or
change markup. -/
theorem C80_structure (M : Marks) (U : Uni) [MarksApart M U] (names : Str → Option Char) (E : Env P X W) (hE : Escaping E.ops)
    (σ : StateId) (src : Source P I) (first : Slot) (tagOf : P → TagObj) (strOf : Val P → Str)
    (ext : Nat → Except RenderErr Str → List AttrVal → List (Str × AttrVal) → Except RenderErr Str)
    (globals : Dict Str (Val P)) (hg : GoodGlobals globals) (void : Str → Option Bool) (ht : KnownTags E.ops tagOf globals void)
    (env : Str → Str) (d : Page) (hd : d.Ok M void env (KnownVar E.ops globals env)) (hok : ItemsOk d.items) (hne : d.items ≠ [])
    (hs : d.Safe env) (Mm : Machine P W) (hi : (Mm.states σ).indentation = ['\n']) :
    ∃ ss doc root syms M' node out, loadScript M U names (itemText d.items) = .ok ss ∧ analyseDocument src first globals ss = .ok doc ∧
      translDocument E σ doc Mm = (.ok (root, syms), M') ∧ Unfolds tagOf strOf M'.mem.nodes root node ∧
      renderNode ext node = .ok out ∧ tokenize out = some (d.events (fun n => (void n).getD false) env) := by
  obtain ⟨ss, doc, root, syms, M', node, h1, h2, h3, h4, h5⟩ := C79_page M U names E hE σ src first tagOf strOf ext globals hg void ht env
    d hd hok hne Mm hi
  exact ⟨ss, doc, root, syms, M', node, _, h1, h2, h3, h4, h5, tokenize_of_lex (page_reads d hd hs).join⟩

end

/-! ### An example -/

section
attribute [local instance] defaultMarks_apart

/-- Two kinds of elements. -/
def exVoid (n : Str) : Option Bool :=
  if n = s!!"p" then some false else if n = s!!"img" then some true else none

/-- Their tags. -/
def exTagOf : Toy.Obj → TagObj
  | .tag 0 => .markup (s!!"p") false .html
  | .tag 1 => .markup (s!!"img") true .html
  | _ => .null

/-- The initial context: `x` is a hostile text. -/
def exGlobals : Dict Str (Val Toy.Obj) :=
  [(s!!"%p", .py (.tag 0)), (s!!"%img", .py (.tag 1)), (s!!"$x", .str (s!!"</p>\"&"))]

/-- Python with the proper escape function. -/
def exPyEnv : Env Toy.Obj Nat Toy.World :=
  { Toy.env with ops := { Toy.ops with escape := some (fun s m => .ret (htmlEscape s) m) } }

/-- A page with nested elements, attributes, a void element, a comment and an empty line. -/
def exPage : Page :=
  .cons 0 (.nested [⟨s!!"p", [(s!!"id", [.lit (s!!"a"), .expr (s!!"x")])]⟩] (s!!"  ")
    (.cons 0 (.inline [⟨s!!"p", []⟩, ⟨s!!"p", []⟩] (.normal [.lit (s!!"${"), .expr (s!!"x")]))
      (.cons 1 (.empty [⟨s!!"img", [(s!!"alt", [.expr (s!!"x")])]⟩]) .nil)))
    (.cons 0 (.comment (s!!" done")) .nil)

example : itemText exPage.items = s!!"p id=\"a{x}\"\n  p : p | $${{{x}\n\n  img alt=\"{x}\"\n-- done" := by
  decide

example : join ['\n'] (exPage.lines (fun n => (exVoid n).getD false) (fun _ => s!!"</p>\"&")) =
    s!!"<p id='a&lt;/p&gt;\"&amp;'>\n  <p><p>${&lt;/p&gt;\"&amp;</p></p>\n\n  <img alt='&lt;/p&gt;\"&amp;' />\n</p>" := by
  decide

theorem exKnown : KnownVar exPyEnv.ops exGlobals (fun _ => s!!"</p>\"&") (s!!"x") :=
  ⟨⟨⟨⟨'x', [], rfl, by decide, by decide⟩, by decide, by decide⟩, by decide⟩, .str (s!!"</p>\"&"), rfl, .inl rfl⟩

theorem exTag_p : TagName (s!!"p") := ⟨⟨⟨'p', [], rfl, by decide, by decide⟩, by decide, by decide⟩, by decide, by decide, by decide⟩
theorem exTag_img : TagName (s!!"img") :=
  ⟨⟨⟨'i', _, rfl, by decide, by decide⟩, by decide, by decide⟩, by decide, by decide, by decide⟩

theorem exPage_ok : exPage.Ok defaultMarks exVoid (fun _ => s!!"</p>\"&") (KnownVar exPyEnv.ops exGlobals (fun _ => s!!"</p>\"&")) := by
  have hp : ∀ s : Str, XmlName s → ∀ ps, PiecesOk defaultMarks (KnownVar exPyEnv.ops exGlobals (fun _ => s!!"</p>\"&")) true ps → ∀ n, TagName n →
      ElemOk defaultMarks (KnownVar exPyEnv.ops exGlobals (fun _ => s!!"</p>\"&")) ⟨n, [(s, ps)]⟩ := fun s hs ps hps n hn =>
    ⟨hn, by simpa using hs, by simp, by simpa using hps⟩
  have h0 : ElemOk defaultMarks (KnownVar exPyEnv.ops exGlobals (fun _ => s!!"</p>\"&")) ⟨s!!"p", []⟩ :=
    ⟨exTag_p, by simp, by simp, by simp⟩
  simp only [exPage, Page.Ok, PageBlock.Ok, ElemsOk, ContentOk, PiecesOk]
  refine ⟨⟨⟨hp (s!!"id") ⟨⟨'i', _, rfl, by decide⟩, by decide, by decide⟩ [.lit (s!!"a"), .expr (s!!"x")] ⟨by decide, exKnown, by decide, by decide, trivial⟩ _ exTag_p, false, rfl, fun _ => rfl⟩,
    by unfold Blanks; decide, by decide, by simp [Page.items],
    ⟨⟨h0, rfl, h0, false, rfl, fun _ => rfl⟩, ⟨by decide, exKnown, by decide, by decide, trivial⟩, by decide, by decide⟩,
    ⟨hp (s!!"alt") ⟨⟨'a', _, rfl, by decide⟩, by decide, by decide⟩ [.expr (s!!"x")] ⟨exKnown, by decide, by decide, trivial⟩ _ exTag_img, true, rfl, by simp⟩, trivial⟩,
    by unfold TextChar; decide, trivial⟩

theorem exPage_items : ItemsOk exPage.items := by
  have : ∀ t, TrimmedLine t ↔ (t ≠ [] ∧ strip t = t ∧ '\n' ∉ t) := fun t =>
    ⟨fun h => ⟨h.1, h.2, h.3⟩, fun h => ⟨h.1, h.2.1, h.2.2⟩⟩
  simp [exPage, Page.items, PageBlock.source, PageBlock.under, ItemsOk, Item.Ok, this, Item.isGroup]
  decide

/-- The text of the example, and what a reader sees. -/
example (src : Source Toy.Obj Unit) : ∃ ss doc root syms M' node,
    loadScript defaultMarks asciiUni (fun _ => none) (s!!"p id=\"a{x}\"\n  p : p | $${{{x}\n\n  img alt=\"{x}\"\n-- done") = .ok ss ∧
    analyseDocument src 0 exGlobals ss = .ok doc ∧
    translDocument exPyEnv 0 doc (Toy.machine []) = (.ok (root, syms), M') ∧ Unfolds exTagOf (fun _ => []) M'.mem.nodes root node ∧
    renderNode (fun _ _ _ _ => .ok []) node =
      .ok (s!!"<p id='a&lt;/p&gt;\"&amp;'>\n  <p><p>${&lt;/p&gt;\"&amp;</p></p>\n\n  <img alt='&lt;/p&gt;\"&amp;' />\n</p>") :=
  C79_page _ _ _ exPyEnv ⟨_, rfl, fun _ _ => rfl⟩ 0 _ 0 exTagOf _ _ exGlobals ⟨by decide, by decide⟩ exVoid
    (by
      intro n v h
      unfold exVoid at h
      split at h
      · next e => subst e; cases h; exact ⟨.tag 0, rfl, rfl, rfl⟩
      · split at h
        · next e => subst e; cases h; exact ⟨.tag 1, rfl, rfl, rfl⟩
        · cases h) _ exPage exPage_ok exPage_items (by simp [exPage, Page.items]) (Toy.machine []) rfl

example : exPage.events (fun n => (exVoid n).getD false) (fun _ => s!!"</p>\"&") =
    [.start (s!!"p") [(s!!"id", some (s!!"a</p>\"&"))], .start (s!!"p") [], .start (s!!"p") []] ++ visible (s!!"${</p>\"&") ++
    [.close (s!!"p"), .close (s!!"p"), .void (s!!"img") [(s!!"alt", some (s!!"</p>\"&"))], .close (s!!"p")] := by decide

example : exPage.Safe (fun _ => s!!"</p>\"&") := by
  simp [exPage, Page.Safe, PageBlock.Safe, Content.Safe]

end
end Verif
