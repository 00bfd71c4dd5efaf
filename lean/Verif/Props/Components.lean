import Verif.Lemmas.Programs
import Verif.Lemmas.DefIds
import Verif.Props.Templates

/-! Properties C86, C87 and C88: scripts that define components (hypertags) and use them. -/

namespace Verif
open Py Spec

/-! ### C88: definitions are told apart by their positions -/

section
variable {P I : Type}

/-- C88. In any script the definitions begin at different positions of the text: the later one in the script has the larger position, and a
definition inside of another one comes after it. Analysis does not change this. So a position identifies a definition. -/
theorem C88_positions (M : Marks) (U : Uni) (names : Str → Option Char) (script : Str) (ss : List (Stmt P))
    (h : loadScript M U names script = .ok ss) :
    ((Stmt.defsAll ss).map Prod.fst).Pairwise (· < ·) ∧
    ∀ (src : Source P I) (first : Slot) (globals : Dict Str (Val P)) (doc : Document P), analyseDocument src first globals ss = .ok doc →
      ((Stmt.defsAll doc.children).map Prod.fst) = (Stmt.defsAll ss).map Prod.fst :=
  ⟨load_ids h, fun src first globals doc hd => analyseDocument_ids src first globals ss doc hd⟩

/-- The definitions of a document by position. -/
def Document.table (doc : Document P) (id : DefId) : DefInfo P :=
  match (Stmt.defsAll doc.children).lookup id with
  | some d => d
  | none => ⟨none, [], .pass⟩

theorem lookup_of_increasing {V : Type} : ∀ {l : List (Nat × V)} {x : Nat × V}, (l.map Prod.fst).Pairwise (· < ·) → x ∈ l → l.lookup x.1 = some x.2
  | y :: l, x, h, hx => by
    simp only [List.map_cons, List.pairwise_cons, List.mem_map, forall_exists_index, and_imp, forall_apply_eq_imp_iff₂] at h
    rw [List.lookup_cons]
    rcases List.mem_cons.1 hx with rfl | hx
    · simp
    · have h1 := h.1 x hx
      rw [show (x.1 == y.1) = false by simpa using Nat.ne_of_gt h1]
      exact lookup_of_increasing h.2 hx

/-- Each definition of an analysed script is found in its table. -/
theorem C88_table (M : Marks) (U : Uni) (names : Str → Option Char) (script : Str) (ss : List (Stmt P))
    (h : loadScript M U names script = .ok ss) (src : Source P I) (first : Slot) (globals : Dict Str (Val P)) (doc : Document P)
    (hd : analyseDocument src first globals ss = .ok doc) : ∀ x ∈ Stmt.defsAll doc.children, doc.table x.1 = x.2 := by
  intro x hx
  obtain ⟨h1, h2⟩ := C88_positions (I := I) M U names script ss h
  rw [← h2 src first globals doc hd] at h1
  unfold Document.table
  rw [lookup_of_increasing h1 hx]

/-- Three definitions, the second one inside of the first one; a script with the marks of the preprocessor inserted. -/
example : (loadScript (P := Unit) defaultMarks asciiUni (fun _ => none) (s!!"p\n% a\n  % b | x\n  b\n% c | y\nc")).toOption.map
    (fun ss => (Stmt.defsAll ss).map Prod.fst) = some [3, 9, 21] := by decide +kernel

end

section
variable {P X W I : Type}

/-! ### C86: the document of a script with components -/

/-- C86. A script that defines components and uses them is loaded, analysed, translated and rendered to the markup of its template, in which
each use of a component stands for the template of its definition: with the arguments of this use, default values for parameters
that are omitted, and the body of this use in place of the embedded body. Components may use those before them, in bodies of
others as well. `Γd` is any table in which the definitions of this script are found by their positions. -/
theorem C86_components (M : Marks) (U : Uni) [MarksApart M U] (names : Str → Option Char) (ops : PyOps P X W) (hE : Escaping ops) (k : Nat)
    (D : PyData ops k) (σ : StateId) (src : Source P I) (first : Slot) (tagOf : P → TagObj) (strOf : Val P → Str)
    (ext : Nat → Except RenderErr Str → List AttrVal → List (Str × AttrVal) → Except RenderErr Str)
    (globals : Dict Str (Val P)) (hg : GoodGlobals globals) (void : Str → Option Bool) (ht : KnownTags ops tagOf globals void)
    (Γ : Str → Prop) (ρ : Vars) (hx : KnownData D globals ρ Γ) (p : Program) (hp : p.Ok M void Γ) (hok : ItemsOk p.items) (hne : p.items ≠ [])
    (ls : List Str) (ho : p.lines (fun n => (void n).getD false) ρ = some ls) :
    ∃ ss doc, loadScript M U names (itemText p.items) = .ok ss ∧ analyseDocument src first globals ss = .ok doc ∧
      ∀ Γd : DefId → DefInfo P, (∀ x ∈ Stmt.defsAll doc.children, Γd x.1 = x.2) → ∀ n, k + p.defs.length < n →
      ∀ Mm : Machine P W, (Mm.states σ).indentation = ['\n'] →
      ∃ root syms M' node, translDocument (envAt ops Γd n) σ doc Mm = (.ok (root, syms), M') ∧ Unfolds tagOf strOf M'.mem.nodes root node ∧
        renderNode ext node = .ok (join ['\n'] ls) := by
  unfold Program.lines at ho
  obtain ⟨cs, h1, rfl⟩ := Option.map_eq_some_iff.1 ho
  exact program_document hE hg.1 hg.2 ht hx hp hok hne h1

/-! ### C87: its structure -/

theorem component_reads {M : Marks} {void : Str → Option Bool} {sigs : Sigs} {Γ : Str → Prop} {lib : Lib} {le : LibEvents} {ls : LibSafe} {ρ : Vars}
    (hl : LibReads lib le ls) {d : Component} (hd : ComponentOk M void sigs Γ d) :
    LibReads (lib.add (fun n => (void n).getD false) ρ d)
      (fun n => if n = d.name then d.events (fun n => (void n).getD false) le ρ else le n)
      (fun n args => if n = d.name then d.tmpl.Safe ls (d.vars ρ args) else ls n args) := by
  intro n vs cb cs ev h1 h2 h3
  unfold Lib.add at h2
  by_cases hn : n = d.name
  · simp only [hn, if_true] at h1 h2 ⊢
    unfold Component.out at h2
    split at h2
    · obtain ⟨cs', h4, rfl⟩ := Option.map_eq_some_iff.1 h2
      have h5 := sees_opening (tmpl_reads hl d.tmpl _ _ _ cb cs' ev hd.tmpl h1 h4 h3)
      have e : ∀ ls, chunkLines [.block ls] = ls := by simp [chunkLines, Chunk.lines]
      rw [e]
      unfold componentLines Component.events
      generalize chunkLines (opening cs') = l at h5
      cases l with
      | nil => exact SeesAll.cons (ev := []) (.nil _) h5
      | cons a l => exact h5
    · cases h2
  · simp only [hn, if_false] at h1 h2 ⊢
    exact hl n vs cb cs ev h1 h2 h3

theorem defs_read {M : Marks} {void : Str → Option Bool} {Γ : Str → Prop} {ρ : Vars} : ∀ (defs : List (Nat × Component)) (sigs : Sigs) (lib : Lib)
    (le : LibEvents) (ls : LibSafe), LibReads lib le ls → DefsOk M void Γ sigs defs →
    LibReads (defs.foldl (fun lib d => lib.add (fun n => (void n).getD false) ρ d.2) lib)
      (defs.foldl (fun lib d n => if n = d.2.name then d.2.events (fun n => (void n).getD false) lib ρ else lib n) le)
      (defs.foldl (fun lib d n args => if n = d.2.name then d.2.tmpl.Safe lib (d.2.vars ρ args) else lib n args) ls)
  | [], _, _, _, _, hl, _ => hl
  | d :: defs, sigs, lib, le, ls, hl, hd => by
    simp only [DefsOk] at hd
    exact defs_read defs (sigs.add d.2) _ _ _ (component_reads hl hd.1) hd.2

/-- C87. A reader of the document of a script with components sees exactly the elements that the template stands for, with the
elements of the component in place of each use of it. Arguments and data are values of attributes and characters of texts, and have no other influence
on the markup. -/
theorem C87_structure (M : Marks) (U : Uni) [MarksApart M U] (names : Str → Option Char) (ops : PyOps P X W) (hE : Escaping ops) (k : Nat)
    (D : PyData ops k) (σ : StateId) (src : Source P I) (first : Slot) (tagOf : P → TagObj) (strOf : Val P → Str)
    (ext : Nat → Except RenderErr Str → List AttrVal → List (Str × AttrVal) → Except RenderErr Str)
    (globals : Dict Str (Val P)) (hg : GoodGlobals globals) (void : Str → Option Bool) (ht : KnownTags ops tagOf globals void)
    (Γ : Str → Prop) (ρ : Vars) (hx : KnownData D globals ρ Γ) (p : Program) (hp : p.Ok M void Γ) (hok : ItemsOk p.items) (hne : p.items ≠ [])
    (hs : p.Safe ρ) (ho : (p.lines (fun n => (void n).getD false) ρ).isSome) :
    ∃ ss doc, loadScript M U names (itemText p.items) = .ok ss ∧ analyseDocument src first globals ss = .ok doc ∧
      ∀ Γd : DefId → DefInfo P, (∀ x ∈ Stmt.defsAll doc.children, Γd x.1 = x.2) → ∀ n, k + p.defs.length < n →
      ∀ Mm : Machine P W, (Mm.states σ).indentation = ['\n'] →
      ∃ root syms M' node out, translDocument (envAt ops Γd n) σ doc Mm = (.ok (root, syms), M') ∧ Unfolds tagOf strOf M'.mem.nodes root node ∧
        renderNode ext node = .ok out ∧ tokenize out = some (p.events (fun n => (void n).getD false) ρ) := by
  obtain ⟨ls, hl⟩ := Option.isSome_iff_exists.1 ho
  obtain ⟨ss, doc, h1, h2, h3⟩ := C86_components M U names ops hE k D σ src first tagOf strOf ext globals hg void ht Γ ρ hx
    p hp hok hne ls hl
  refine ⟨ss, doc, h1, h2, fun Γd hΓ n hn Mm hi => ?_⟩
  obtain ⟨root, syms, M', node, h4, h5, h6⟩ := h3 Γd hΓ n hn Mm hi
  refine ⟨root, syms, M', node, _, h4, h5, h6, ?_⟩
  unfold Program.lines Program.out at hl
  obtain ⟨cs, k1, rfl⟩ := Option.map_eq_some_iff.1 hl
  obtain ⟨cs', k2, rfl⟩ := Option.map_eq_some_iff.1 k1
  have hlib : LibReads (defsLib (fun n => (void n).getD false) ρ p.defs) (defsEvents (fun n => (void n).getD false) ρ p.defs) (defsSafe ρ p.defs) :=
    defs_read p.defs noSigs noLib _ _ nofun hp.defs
  have h7 := tmpl_reads hlib p.main Γ false ρ [] cs' [] hp.main hs k2 .nil
  have h8 : SeesAll (chunkLines (p.defs.flatMap (fun d => gap d.1))) [] := by
    generalize p.defs = l
    induction l with
    | nil => exact .nil
    | cons d l ih =>
      rw [List.flatMap_cons, chunkLines_append, chunkLines_gap]
      exact SeesAll.append (ev := []) (.blank d.1) ih
  refine tokenize_of_lex (SeesAll.join ?_)
  rw [chunkLines_append]
  exact SeesAll.append (ev := []) h8 h7

end

/-! ### An example -/

section
attribute [local instance] defaultMarks_apart

/-- The script of the example:

    % item r
      p id="r{r.id}" | {r.id}

    % box @body title="no {x}" all=rows
      p
        p | {title}
        for r in all
          item r=r
        @ body

    box title="A"
      img
    box all=none | B
-/
def exItem : Component :=
  ⟨s!!"item", none, [(s!!"r", none)], s!!"  ",
    .cons 0 (.inline [⟨s!!"p", [(s!!"id", [.lit (s!!"r"), .expr (s!!"r.id")])]⟩] (.normal [.expr (s!!"r.id")])) .nil⟩

def exBox : Component :=
  ⟨s!!"box", some (s!!"body"), [(s!!"title", some (.string [.lit (s!!"no "), .expr (s!!"x")])), (s!!"all", some (.path (s!!"rows")))], s!!"  ",
    .cons 0 (.nested [⟨s!!"p", []⟩] (s!!"  ")
      (.cons 0 (.inline [⟨s!!"p", []⟩] (.normal [.expr (s!!"title")]))
      (.cons 0 (.loop (s!!"r") (s!!"all") (s!!"  ") (.cons 0 (.call (s!!"item") [(s!!"r", .path (s!!"r"))]) .nil))
      (.cons 0 (.embed (s!!"body")) .nil)))) .nil⟩

def exProgram : Program :=
  { defs := [(0, exItem), (1, exBox)],
    main := .cons 1 (.callNested (s!!"box") [(s!!"title", .string [.lit (s!!"A")])] (s!!"  ") (.cons 0 (.empty [⟨s!!"img", []⟩]) .nil))
      (.cons 0 (.callInline (s!!"box") [(s!!"all", .path (s!!"none"))] (.normal [.lit (s!!"B")])) .nil) }

/-- Its script. -/
def exProgramText : Str := s!!"% item r\n  p id=\"r{r.id}\" | {r.id}\n\n% box @body title=\"no {x}\" all=rows\n  p\n    p | {title}\n    for r in all\n      item r=r\n    @ body\n\nbox title=\"A\"\n  img\nbox all=none | B"

example : itemText exProgram.items = exProgramText := by decide +kernel

/-- Its markup. -/
def exProgramHtml : Str := s!!"\n\n<p>\n  <p>A</p>\n  <p id=\"r7\">7</p>\n  <p id=\"r8\">8</p>\n  <img />\n</p>\n<p>\n  <p>no &lt;/p&gt;&amp;</p>\n  B\n</p>"

example : (exProgram.lines (fun n => (exVoid n).getD false) exVars).map (join ['\n']) = some exProgramHtml := by decide +kernel

/-- What a reader sees. -/
example : exProgram.events (fun n => (exVoid n).getD false) exVars =
    [.start (s!!"p") [], .start (s!!"p") []] ++ visible (s!!"A") ++ [.close (s!!"p"), .start (s!!"p") [(s!!"id", some (s!!"r7"))]] ++ visible (s!!"7") ++
    [.close (s!!"p"), .start (s!!"p") [(s!!"id", some (s!!"r8"))]] ++ visible (s!!"8") ++ [.close (s!!"p"), .void (s!!"img") [], .close (s!!"p")] ++
    [.start (s!!"p") [], .start (s!!"p") []] ++ visible (s!!"no</p>&") ++ [.close (s!!"p")] ++ visible (s!!"B") ++ [.close (s!!"p")] := by decide +kernel

theorem exXmlName {c : Char} {s : Str} (h : nameStart c = true ∧ (∀ x ∈ c :: s, nameChar x = true ∨ x = '.' ∨ x = '-' ∨ x = ':') ∧ (c :: s).getLast? ≠ some ':') :
    XmlName (c :: s) := ⟨⟨c, s, rfl, h.1⟩, h.2.1, h.2.2⟩

theorem exProgram_ok : exProgram.Ok defaultMarks exVoid exScope := by
  have hp : ∀ Γ, ElemsOk defaultMarks exVoid (PathOk Γ) false [⟨s!!"p", []⟩] := fun Γ =>
    ⟨⟨exTag_p, by simp, by simp, by simp⟩, false, rfl, fun _ => rfl⟩
  have him : ∀ Γ, ElemsOk defaultMarks exVoid (PathOk Γ) true [⟨s!!"img", []⟩] := fun Γ =>
    ⟨⟨exTag_img, by simp, by simp, by simp⟩, true, rfl, by simp⟩
  have hb : Blanks (s!!"  ") := by unfold Blanks; decide
  have hrid : ∀ Γ : Str → Prop, Γ (s!!"r") → PathOk Γ (s!!"r.id") := fun Γ h =>
    ⟨s!!"r", [s!!"id"], rfl, exVarName (by decide), h, by
      simp only [List.mem_singleton, forall_eq]
      exact (exVarName (by decide)).toName⟩
  have h1 : ComponentOk defaultMarks exVoid noSigs exScope exItem := by
    refine ⟨⟨⟨⟨'i', _, rfl, by decide, by decide⟩, by decide, by decide⟩, by decide, by decide, by decide⟩, ⟨rfl, rfl⟩, by decide, nofun, ?_, ?_, ⟨hb, by decide⟩, nofun, ?_⟩
    · simp only [exItem, List.mem_singleton, forall_eq]
      exact ⟨exVarName (by decide), exXmlName (by decide)⟩
    · simp [exItem]
    · have hr : Component.scope exItem exScope (s!!"r") := ⟨.inl (by decide), nofun⟩
      simp only [exItem, Tmpl.Ok, TmplBlock.Ok, and_true, or_self]
      refine ⟨⟨⟨exTag_p, by simpa using exXmlName (by decide), by simp, ?_⟩, false, rfl, fun _ => rfl⟩, ⟨hrid _ hr, by decide, by decide, trivial⟩, by decide⟩
      simp only [List.mem_singleton, forall_eq]
      exact ⟨by decide, hrid _ hr, by decide, by decide, trivial⟩
  have h2 : ComponentOk defaultMarks exVoid (noSigs.add exItem) exScope exBox := by
    refine ⟨⟨⟨⟨'b', _, rfl, by decide, by decide⟩, by decide, by decide⟩, by decide, by decide, by decide⟩, ⟨rfl, rfl⟩, by decide, ?_, ?_, ?_,
      ⟨hb, by decide⟩, nofun, ?_⟩
    · rintro b ⟨⟩; exact exVarName (by decide)
    · simp only [exBox, List.mem_cons, List.not_mem_nil, or_false, forall_eq_or_imp, forall_eq]
      exact ⟨⟨exVarName (by decide), exXmlName (by decide)⟩, exVarName (by decide), exXmlName (by decide)⟩
    · simp only [exBox, List.mem_cons, List.not_mem_nil, or_false, forall_eq_or_imp, forall_eq, Option.some.injEq, forall_eq', GivenOk]
      exact ⟨⟨by decide, exPath (exVarName (by decide)) (.inl rfl), by decide, by decide, trivial⟩, exPath (exVarName (by decide)) (.inr (.inl rfl))⟩
    · have ht : Component.scope exBox exScope (s!!"title") := ⟨.inl (by decide), by decide⟩
      have ha : Component.scope exBox exScope (s!!"all") := ⟨.inl (by decide), by decide⟩
      have hr : ¬ Component.scope exBox exScope (s!!"r") := by
        rintro ⟨h | h, -⟩
        · exact absurd h (by decide)
        · revert h; unfold exScope; decide
      simp only [exBox, Tmpl.Ok, TmplBlock.Ok, TmplBlock.scope, and_true, or_self, hp, hb, true_and]
      refine .inl ⟨by decide, nofun, .inr ⟨⟨⟨exPath (exVarName (by decide)) ht, by decide, by decide, trivial⟩, by decide⟩,
        .inr ⟨⟨exPath (exVarName (by decide)) ha, exVarName (by decide), hr, by decide, by decide, nofun, exItem.sig, rfl, ?_⟩, .inl ⟨rfl, exVarName (by decide)⟩⟩⟩⟩
      exact ⟨by decide, by decide, by decide, by
        simp only [List.mem_singleton, forall_eq, GivenOk]
        exact exPath (exVarName (by decide)) (.inl rfl)⟩
  refine ⟨⟨h1, h2, trivial⟩, ?_⟩
  simp only [exProgram, Tmpl.Ok, TmplBlock.Ok, TmplBlock.scope, and_true, or_self, him, hb, true_and]
  refine ⟨⟨⟨exBox.sig, rfl, rfl, ?_⟩, by decide, nofun⟩, ⟨exBox.sig, rfl, rfl, ?_⟩, ⟨by decide, trivial⟩, by decide⟩
  · exact ⟨by decide, by decide, by decide, by
      simp only [List.mem_singleton, forall_eq, GivenOk]
      exact ⟨by decide, trivial⟩⟩
  · exact ⟨by decide, by decide, by decide, by
      simp only [List.mem_singleton, forall_eq, GivenOk]
      exact exPath (exVarName (by decide)) (.inr (.inr rfl))⟩

theorem exProgram_items : ItemsOk exProgram.items := by
  have : ∀ t, TrimmedLine t ↔ (t ≠ [] ∧ strip t = t ∧ '\n' ∉ t) := fun t =>
    ⟨fun h => ⟨h.1, h.2, h.3⟩, fun h => ⟨h.1, h.2.1, h.2.2⟩⟩
  simp [exProgram, exItem, exBox, Program.items, defItems, Tmpl.items, TmplBlock.source, TmplBlock.under, ItemsOk, Item.Ok, this, Item.isGroup]
  repeat' apply And.intro
  all_goals decide

theorem exKnownTags : KnownTags exDataEnv.ops exTagOf exDataGlobals exVoid := by
  intro n v h
  unfold exVoid at h
  split at h
  · next e => subst e; cases h; exact ⟨.tag 0, rfl, rfl, rfl⟩
  · split at h
    · next e => subst e; cases h; exact ⟨.tag 1, rfl, rfl, rfl⟩
    · cases h

/-- The script is rendered to its markup. -/
example (src : Source Toy.Obj Unit) : ∃ ss doc root syms M' node,
    loadScript defaultMarks asciiUni (fun _ => none) exProgramText = .ok ss ∧ analyseDocument src 0 exDataGlobals ss = .ok doc ∧
    translDocument (envAt exDataEnv.ops doc.table 13) 0 doc (Toy.machine []) = (.ok (root, syms), M') ∧
    Unfolds exTagOf (fun _ => []) M'.mem.nodes root node ∧ renderNode (fun _ _ _ _ => .ok []) node = .ok exProgramHtml := by
  have hl : (exProgram.lines (fun n => (exVoid n).getD false) exVars).map (join ['\n']) = some exProgramHtml := by decide +kernel
  obtain ⟨ls, h1, h2⟩ := Option.map_eq_some_iff.1 hl
  obtain ⟨ss, doc, h3, h4, h5⟩ := C86_components defaultMarks asciiUni (fun _ => none) exDataEnv.ops ⟨_, rfl, fun _ _ => rfl⟩ 10 toyPyData 0 src 0
    exTagOf (fun _ => []) (fun _ _ _ _ => .ok []) exDataGlobals ⟨by decide, by decide⟩ exVoid exKnownTags exScope exVars exData_known
    exProgram exProgram_ok exProgram_items (by simp [exProgram, Program.items, defItems]) ls h1
  obtain ⟨root, syms, M', node, h6, h7, h8⟩ := h5 doc.table (C88_table _ _ _ _ _ h3 src 0 exDataGlobals doc h4) 13 (by decide) (Toy.machine []) rfl
  exact ⟨ss, doc, root, syms, M', node, h3, h4, h6, h7, h2 ▸ h8⟩

example : exProgram.Safe exVars := by
  simp [exProgram, exItem, exBox, Program.Safe, Tmpl.Safe, TmplBlock.Safe, Content.Safe, defsSafe, callSafe]

/-- Why the body may be embedded only once: embedding does not copy the nodes (ast.py:516-520), so properties of the layout that are set at one place
(`set_indent`, `set_outline`) change the other one. Here the two elements should be on two lines, -/
example : exText exDataGlobals (s!!"% h @b\n  @ b\n  @ b\nh\n  p | x") = some (s!!"<p>x</p><p>x</p>") := by decide +kernel

/-- and here the first text should be indented. -/
example : exText exDataGlobals (s!!"% h @b\n  p\n    @ b\n  @ b\nh | x") = some (s!!"<p>\nx\n</p>\nx") := by decide +kernel

end
end Verif
