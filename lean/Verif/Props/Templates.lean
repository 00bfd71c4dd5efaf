import Verif.Lemmas.TemplateEvents
import Verif.Props.Safety

/-! Properties C84 and C85: templates with conditions, loops and variables, and the documents they are rendered to. -/

namespace Verif
open Py Spec

section
variable {P X W I : Type}

/-- The variables `Γ` are in the initial context, and stand for the data `ρ`. -/
def KnownData {ops : PyOps P X W} {fuel : Nat} (D : PyData ops fuel) (globals : Dict Str (Val P)) (ρ : Vars) (Γ : Str → Prop) : Prop :=
  ∀ y, Γ y → ∃ v d, Dict.get? globals ('$' :: y) = some v ∧ ρ y = some d ∧ D.rep v d

/-! ### C84: the document of a template -/

/-- C84. The script of a template with elements, texts, conditions, loops and assignments, of any size and nesting,
is loaded, analysed, translated and rendered to the markup that the template stands for with the given data: clauses of conditions are chosen by
the truth of the data, loops repeat their bodies for all items of a list, in order, and values are escaped in texts and quoted in attributes. -/
theorem C84_template (M : Marks) (U : Uni) [MarksApart M U] (names : Str → Option Char) (E : Env P X W) (hE : Escaping E.ops)
    (D : PyData E.ops E.fuel) (σ : StateId) (src : Source P I) (first : Slot) (tagOf : P → TagObj) (strOf : Val P → Str)
    (ext : Nat → Except RenderErr Str → List AttrVal → List (Str × AttrVal) → Except RenderErr Str)
    (globals : Dict Str (Val P)) (hg : GoodGlobals globals) (void : Str → Option Bool) (ht : KnownTags E.ops tagOf globals void)
    (Γ : Str → Prop) (ρ : Vars) (hx : KnownData D globals ρ Γ) (T : Tmpl) (hT : T.Plain M void Γ) (hok : ItemsOk T.items) (hne : T.items ≠ [])
    (ls : List Str) (ho : T.lines (fun n => (void n).getD false) ρ = some ls) (Mm : Machine P W) (hi : (Mm.states σ).indentation = ['\n']) :
    ∃ ss doc root syms M' node, loadScript M U names (itemText T.items) = .ok ss ∧ analyseDocument src first globals ss = .ok doc ∧
      translDocument E σ doc Mm = (.ok (root, syms), M') ∧ Unfolds tagOf strOf M'.mem.nodes root node ∧
      renderNode ext node = .ok (join ['\n'] ls) := by
  unfold Tmpl.lines at ho
  obtain ⟨cs, h1, rfl⟩ := Option.map_eq_some_iff.1 ho
  exact template_document hE.html hg.1 hg.2 hi ht hx hT hok hne h1

/-! ### C85: its structure -/

/-- C85. A reader of the document sees exactly the elements that the template stands for: those of the chosen clauses, and those of the bodies of
loops once for each item, with the data as values of attributes and as characters of texts. Data have no other influence
on the markup. -/
theorem C85_structure (M : Marks) (U : Uni) [MarksApart M U] (names : Str → Option Char) (E : Env P X W) (hE : Escaping E.ops)
    (D : PyData E.ops E.fuel) (σ : StateId) (src : Source P I) (first : Slot) (tagOf : P → TagObj) (strOf : Val P → Str)
    (ext : Nat → Except RenderErr Str → List AttrVal → List (Str × AttrVal) → Except RenderErr Str)
    (globals : Dict Str (Val P)) (hg : GoodGlobals globals) (void : Str → Option Bool) (ht : KnownTags E.ops tagOf globals void)
    (Γ : Str → Prop) (ρ : Vars) (hx : KnownData D globals ρ Γ) (T : Tmpl) (hT : T.Plain M void Γ) (hok : ItemsOk T.items) (hne : T.items ≠ [])
    (hs : T.Harmless ρ) (ho : (T.lines (fun n => (void n).getD false) ρ).isSome) (Mm : Machine P W) (hi : (Mm.states σ).indentation = ['\n']) :
    ∃ ss doc root syms M' node out, loadScript M U names (itemText T.items) = .ok ss ∧ analyseDocument src first globals ss = .ok doc ∧
      translDocument E σ doc Mm = (.ok (root, syms), M') ∧ Unfolds tagOf strOf M'.mem.nodes root node ∧
      renderNode ext node = .ok out ∧ tokenize out = some (T.read (fun n => (void n).getD false) ρ) := by
  obtain ⟨ls, hl⟩ := Option.isSome_iff_exists.1 ho
  obtain ⟨ss, doc, root, syms, M', node, h1, h2, h3, h4, h5⟩ := C84_template M U names E hE D σ src first tagOf strOf ext globals hg void ht Γ ρ hx
    T hT hok hne ls hl Mm hi
  refine ⟨ss, doc, root, syms, M', node, _, h1, h2, h3, h4, h5, ?_⟩
  unfold Tmpl.lines at hl
  obtain ⟨cs, k1, rfl⟩ := Option.map_eq_some_iff.1 hl
  exact tokenize_of_lex (tmpl_reads (lib := noLib) (ls := fun _ _ => True) nofun T Γ false ρ [] cs [] hT hs k1 .nil).join

end

/-! ### An example -/

section
attribute [local instance] defaultMarks_apart

/-- The toy Python with a field `id` of functions, which serve as records. -/
def exDataEnv : Env Toy.Obj Nat Toy.World :=
  { exPyEnv with ops := { exPyEnv.ops with getattr := fun v n => match v, n with
    | .py (.fn k), ['i', 'd'] => Toy.ret (.py (.num k))
    | _, _ => Toy.fail 9 } }

mutual
/-- The data that objects stand for. -/
def toyData : Toy.Obj → Option Data
  | .num n => some (.atom (decide (n ≠ 0)) (Nat.repr n).toList)
  | .seq l => if l.length < 10 then (toyDatas l).map .list else none
  | .fn k => some (.record true [(s!!"id", .atom (decide (k ≠ 0)) (Nat.repr k).toList)])
  | _ => none
/-- The same for a list. -/
def toyDatas : List Toy.Obj → Option (List Data)
  | [] => some []
  | o :: os => (toyData o).bind (fun d => (toyDatas os).map (d :: ·))
end

/-- Objects for data. -/
def toyRep : Val Toy.Obj → Data → Prop
  | .str s, d => d = .string s
  | .none, d => d = .null
  | .py o, d => toyData o = some d
  | _, _ => False

theorem toyDatas_pairs : ∀ {l : List Toy.Obj} {ds : List Data}, toyDatas l = some ds → ∃ ps : List (Toy.Obj × Data),
    ps.map Prod.snd = ds ∧ ps.map Prod.fst = l ∧ ∀ p ∈ ps, toyData p.1 = some p.2
  | [], ds, h => by
    simp only [toyDatas, Option.some.injEq] at h
    subst h
    exact ⟨[], rfl, rfl, by simp⟩
  | o :: os, ds, h => by
    simp only [toyDatas, Option.bind_eq_some_iff, Option.map_eq_some_iff] at h
    obtain ⟨d, h1, ds', h2, rfl⟩ := h
    obtain ⟨ps, rfl, rfl, h3⟩ := toyDatas_pairs h2
    exact ⟨(o, d) :: ps, rfl, rfl, by simpa [h1] using h3⟩

/-- Numbers, strings, lists shorter than 10, and records. -/
def toyPyData : PyData exDataEnv.ops exDataEnv.fuel where
  rep := toyRep
  pending w it l := ∃ i os, it = .py (.iter i) ∧ w.iters[i]? = some os ∧ l = os.map Val.py
  string s := rfl
  truth := by
    intro v d h
    cases v <;> simp only [toyRep] at h
    · rename_i o
      cases o <;> simp only [toyData, Option.some.injEq, reduceCtorEq, Option.ite_none_right_eq_some, Option.map_eq_some_iff] at h
      · subst h; exact fun m => rfl
      · obtain ⟨-, ds, h1, rfl⟩ := h
        obtain ⟨ps, rfl, rfl, -⟩ := toyDatas_pairs h1
        intro m
        cases ps <;> rfl
      · subst h; exact fun m => rfl
    · subst h; rfl
    · subst h; rfl
  text := by
    intro v t s h
    cases v <;> simp only [toyRep, reduceCtorEq] at h
    · rename_i o
      cases o <;> simp only [toyData, Option.some.injEq, reduceCtorEq, Option.ite_none_right_eq_some, Option.map_eq_some_iff, and_false, exists_false] at h
      · cases h
        exact .inr ⟨by simp, by simp, fun m => rfl⟩
    · simp only [Data.string, Data.atom.injEq] at h
      rw [h.2]
      exact .inl rfl
  field := by
    intro v d n d' h hf
    cases v <;> simp only [toyRep] at h
    · rename_i o
      cases o <;> simp only [toyData, Option.some.injEq, reduceCtorEq, Option.ite_none_right_eq_some, Option.map_eq_some_iff] at h
      · subst h; cases hf
      · obtain ⟨-, ds, h1, rfl⟩ := h
        cases hf
      · subst h
        rename_i k
        simp only [Data.field, List.lookup_cons, List.lookup_nil] at hf
        split at hf
        · rename_i hn
          have hn : n = ['i', 'd'] := by simpa using hn
          subst hn
          simp only [Option.some.injEq] at hf
          subst hf
          exact ⟨.py (.num k), fun m => rfl, by simp [toyRep, toyData]⟩
        · cases hf
    · subst h; cases hf
    · subst h; cases hf
  iter := by
    intro v ds h
    cases v <;> simp only [toyRep, reduceCtorEq, Data.string] at h
    rename_i o
    cases o <;> simp only [toyData, Option.some.injEq, reduceCtorEq, Option.ite_none_right_eq_some, Option.map_eq_some_iff] at h
    rename_i l
    obtain ⟨hl, ds', h1, e⟩ := h
    cases e
    obtain ⟨ps, rfl, rfl, h3⟩ := toyDatas_pairs h1
    refine ⟨by show _ < 10; simpa using hl, ps.map (fun p => (Val.py p.1, p.2)), by simp, ?_, fun w => ?_⟩
    · intro p hp
      obtain ⟨q, hq, rfl⟩ := List.mem_map.1 hp
      exact h3 q hq
    · refine ⟨.py (.iter w.iters.length), { w with iters := w.iters ++ [ps.map Prod.fst] }, ?_, ?_, ?_⟩
      · rintro m rfl; rfl
      · exact ⟨w.iters.length, ps.map Prod.fst, rfl, by simp, by simp⟩
      · rintro it' l ⟨i, os, rfl, h5, rfl⟩
        have hi : i < w.iters.length := (List.getElem?_eq_some_iff.1 h5).1
        refine ⟨?_, i, os, rfl, ?_, rfl⟩
        · intro e
          cases e
          exact absurd hi (Nat.lt_irrefl _)
        · simp only
          rw [List.getElem?_append_left hi]; exact h5
  next := by
    rintro w it l ⟨i, os, rfl, h, rfl⟩
    cases os with
    | nil =>
      refine ⟨w, ?_, ⟨i, [], rfl, h, rfl⟩, fun _ _ _ h => h⟩
      rintro m rfl
      show Proc.ret ((Toy.nextIter i m).1.map Val.py) (Toy.nextIter i m).2 = _
      simp [Toy.nextIter, h]
    | cons x xs =>
      refine ⟨{ w with iters := w.iters.set i xs }, ?_, ⟨i, xs, rfl, ?_, rfl⟩, ?_⟩
      · rintro m rfl
        show Proc.ret ((Toy.nextIter i m).1.map Val.py) (Toy.nextIter i m).2 = _
        simp [Toy.nextIter, h]
      · have hi : i < w.iters.length := (List.getElem?_eq_some_iff.1 h).1
        simp [hi]
      · rintro it' l' hne ⟨j, os, rfl, h5, rfl⟩
        refine ⟨j, os, rfl, ?_, rfl⟩
        simp only
        rw [List.getElem?_set_ne]
        · exact h5
        · rintro rfl; exact hne rfl

/-- The initial context: a hostile text, a list of records, an empty list. -/
def exDataGlobals : Dict Str (Val Toy.Obj) :=
  [(s!!"%p", .py (.tag 0)), (s!!"%img", .py (.tag 1)), (s!!"$x", .str (s!!"</p>&")),
   (s!!"$rows", .py (.seq [.fn 7, .fn 8])), (s!!"$none", .py (.seq []))]

/-- The data. -/
def exVars : Vars := fun y =>
  if y = s!!"x" then some (.string (s!!"</p>&")) else if y = s!!"rows" then toyData (.seq [.fn 7, .fn 8])
  else if y = s!!"none" then some (.list []) else none

/-- The script of the example:

    $ t = "no {x}"
    p
      for r in rows
        p id="r{r.id}" | {t}
        if none
          img
        elif not r.id
          img
        else

          | last
    if rows
      p
        for r in none
          img
-/
def exTemplate : Tmpl :=
  .cons 0 (.set (s!!"t") (.string [.lit (s!!"no "), .expr (s!!"x")]))
  (.cons 0 (.nested [⟨s!!"p", []⟩] (s!!"  ")
    (.cons 0 (.loop (s!!"r") (s!!"rows") (s!!"  ")
      (.cons 0 (.inline [⟨s!!"p", [(s!!"id", [.lit (s!!"r"), .expr (s!!"r.id")])]⟩] (.normal [.expr (s!!"t")]))
      (.cons 0 (.cond (.holds (s!!"none")) (s!!"  ") (.cons 0 (.empty [⟨s!!"img", []⟩]) .nil)
        (.elif 0 (.fails (s!!"r.id")) (s!!"  ") (.cons 0 (.empty [⟨s!!"img", []⟩]) .nil)
          (.els 0 (s!!"  ") (.cons 1 (.text (.normal [.lit (s!!"last")])) .nil)))) .nil))) .nil))
  (.cons 0 (.cond (.holds (s!!"rows")) (s!!"  ")
    (.cons 0 (.nested [⟨s!!"p", []⟩] (s!!"  ") (.cons 0 (.loop (s!!"r") (s!!"none") (s!!"  ") (.cons 0 (.empty [⟨s!!"img", []⟩]) .nil)) .nil)) .nil)
    .none) .nil))

/-- Its script. -/
def exTemplateText : Str := s!!"$ t = \"no {x}\"\np\n  for r in rows\n    p id=\"r{r.id}\" | {t}\n    if none\n      img\n    elif not r.id\n      img\n    else\n\n      | last\nif rows\n  p\n    for r in none\n      img"

example : itemText exTemplate.items = exTemplateText := by decide +kernel

/-- Its markup. The empty line before the text becomes two empty lines. -/
def exTemplateHtml : Str := s!!"<p>\n  <p id=\"r7\">no &lt;/p&gt;&amp;</p>\n\n\n  last\n  <p id=\"r8\">no &lt;/p&gt;&amp;</p>\n\n\n  last\n</p>\n<p></p>"

example : (exTemplate.lines (fun n => (exVoid n).getD false) exVars).map (join ['\n']) = some exTemplateHtml := by decide +kernel

/-- What a reader sees. -/
example : exTemplate.read (fun n => (exVoid n).getD false) exVars =
    [.start (s!!"p") [], .start (s!!"p") [(s!!"id", some (s!!"r7"))]] ++ visible (s!!"no</p>&") ++ .close (s!!"p") :: visible (s!!"last") ++
    .start (s!!"p") [(s!!"id", some (s!!"r8"))] :: visible (s!!"no</p>&") ++ .close (s!!"p") :: visible (s!!"last") ++
    [.close (s!!"p"), .start (s!!"p") [], .close (s!!"p")] := by decide +kernel

theorem exVarName {c : Char} {s : Str} (h : nameStart c = true ∧ c.toNat < 128 ∧ (∀ x ∈ c :: s, nameChar x = true) ∧ c :: s ∉ reservedNames ∧
    ¬ s!!"True" <+: c :: s ∧ ¬ s!!"False" <+: c :: s ∧ ¬ s!!"None" <+: c :: s) : VarName (c :: s) :=
  ⟨⟨⟨c, s, rfl, h.1, h.2.1⟩, h.2.2.1, h.2.2.2.1⟩, h.2.2.2.2⟩

theorem exPath {Γ : Str → Prop} {x : Str} (h : VarName x) (hΓ : Γ x) : PathOk Γ x := ⟨x, [], by simp, h, hΓ, by simp⟩

/-- The variables of the example. -/
def exScope (y : Str) : Prop := y = s!!"x" ∨ y = s!!"rows" ∨ y = s!!"none"

theorem exTemplate_ok : exTemplate.Plain defaultMarks exVoid exScope := by
  have hp : ∀ Γ, ElemsOk defaultMarks exVoid (PathOk Γ) false [⟨s!!"p", []⟩] := fun Γ =>
    ⟨⟨exTag_p, by simp, by simp, by simp⟩, false, rfl, fun _ => rfl⟩
  have him : ∀ Γ, ElemsOk defaultMarks exVoid (PathOk Γ) true [⟨s!!"img", []⟩] := fun Γ =>
    ⟨⟨exTag_img, by simp, by simp, by simp⟩, true, rfl, by simp⟩
  have hb : Blanks (s!!"  ") := by unfold Blanks; decide
  have hrid : ∀ Γ : Str → Prop, Γ (s!!"r") → PathOk Γ (s!!"r.id") := fun Γ h =>
    ⟨s!!"r", [s!!"id"], rfl, exVarName (by decide), h, by
      simp only [List.mem_singleton, forall_eq]
      exact (exVarName (by decide)).toName⟩
  simp only [exTemplate, Tmpl.Plain, Tmpl.Ok, or_self, TmplBlock.Ok, TmplElse.Ok, TmplBlock.scope, Tmpl.items, TestOk, GivenOk, and_true, ne_eq, reduceCtorEq,
    not_false_eq_true, true_and, hp, him, hb]
  refine ⟨⟨⟨by decide, exPath (exVarName (by decide)) (.inl rfl), by decide, by decide, trivial⟩, exVarName (by decide), ?_⟩,
    ⟨exPath (exVarName (by decide)) (.inr (.inr (.inl rfl))), exVarName (by decide), ?_,
      ⟨⟨⟨exTag_p, by simpa using ⟨⟨'i', _, rfl, by decide⟩, by decide, by decide⟩, by simp, ?_⟩, false, rfl, fun _ => rfl⟩,
        ⟨exPath (exVarName (by decide)) (.inr (.inl rfl)), by decide, by decide, trivial⟩, by decide⟩,
      exPath (exVarName (by decide)) (.inr (.inr (.inr (.inr rfl)))), hrid _ (.inl rfl), ⟨by decide, trivial⟩, by decide⟩,
    exPath (exVarName (by decide)) (.inr (.inr (.inl rfl))), exPath (exVarName (by decide)) (.inr (.inr (.inr rfl))), exVarName (by decide), ?_⟩
  · unfold exScope; decide
  · unfold exScope; decide
  · simp only [List.mem_singleton, forall_eq]
    exact ⟨by decide, hrid _ (.inl rfl), by decide, by decide, trivial⟩
  · unfold exScope; decide

theorem exTemplate_items : ItemsOk exTemplate.items := by
  have : ∀ t, TrimmedLine t ↔ (t ≠ [] ∧ strip t = t ∧ '\n' ∉ t) := fun t =>
    ⟨fun h => ⟨h.1, h.2, h.3⟩, fun h => ⟨h.1, h.2.1, h.2.2⟩⟩
  simp [exTemplate, Tmpl.items, TmplBlock.source, TmplBlock.under, TmplElse.items, ItemsOk, Item.Ok, this, Item.isGroup]
  repeat' apply And.intro
  all_goals decide

theorem exData_known : KnownData toyPyData exDataGlobals exVars exScope := by
  rintro y (rfl | rfl | rfl)
  · exact ⟨_, _, rfl, rfl, rfl⟩
  · exact ⟨_, .list _, rfl, rfl, rfl⟩
  · exact ⟨_, _, rfl, rfl, rfl⟩

/-- The script is rendered to its markup. -/
example (src : Source Toy.Obj Unit) : ∃ ss doc root syms M' node,
    loadScript defaultMarks asciiUni (fun _ => none) exTemplateText = .ok ss ∧ analyseDocument src 0 exDataGlobals ss = .ok doc ∧
    translDocument exDataEnv 0 doc (Toy.machine []) = (.ok (root, syms), M') ∧ Unfolds exTagOf (fun _ => []) M'.mem.nodes root node ∧
    renderNode (fun _ _ _ _ => .ok []) node = .ok exTemplateHtml := by
  have hl : (exTemplate.lines (fun n => (exVoid n).getD false) exVars).map (join ['\n']) = some exTemplateHtml := by decide +kernel
  obtain ⟨ls, h1, h2⟩ := Option.map_eq_some_iff.1 hl
  have := C84_template defaultMarks asciiUni (fun _ => none) exDataEnv ⟨_, rfl, fun _ _ => rfl⟩ toyPyData 0 src 0 exTagOf (fun _ => []) (fun _ _ _ _ => .ok [])
    exDataGlobals ⟨by decide, by decide⟩ exVoid
    (by
      intro n v h
      unfold exVoid at h
      split at h
      · next e => subst e; cases h; exact ⟨.tag 0, rfl, rfl, rfl⟩
      · split at h
        · next e => subst e; cases h; exact ⟨.tag 1, rfl, rfl, rfl⟩
        · cases h) exScope exVars exData_known exTemplate exTemplate_ok exTemplate_items (by simp [exTemplate, Tmpl.items]) ls h1 (Toy.machine []) rfl
  rw [h2] at this
  exact this

example : exTemplate.Harmless exVars := by
  simp [exTemplate, Tmpl.Harmless, Tmpl.Safe, TmplBlock.Safe, TmplElse.Safe, Content.Safe]

end
end Verif
