import Verif.Lemmas.HeapTree

/-! Trees of nodes and the texts they are rendered to. -/

namespace Verif
open Py Spec

/-- How a node is placed when an enclosing node is rendered: as it is (`bare`: no indentation was set),
shifted to the level of its block, or at the left margin. -/
inductive Place where
  | bare
  | level
  | flush

/-- A part of the output: whether it begins a new line, its place, and the text. -/
structure Entry where
  outline : Bool
  place : Place
  text : Str

/-- The text with its newline. -/
def Entry.full (e : Entry) : Str := (if e.outline then ['\n'] else []) ++ e.text

/-- The text of the entry in a body that is indented by `inc`. -/
def Entry.shown (inc : Str) (e : Entry) : Str :=
  match e.place with
  | .level => addIndent e.full inc
  | _ => e.full

/-- The text of a body. -/
def shownAll (inc : Str) (es : List Entry) : Str := es.flatMap (Entry.shown inc)

section
variable (ext : Nat → Except RenderErr Str → List AttrVal → List (Str × AttrVal) → Except RenderErr Str)

/-- No absolute indentations remain in a body. -/
def Arranged (body : List Node) : Prop := ∀ p, relOks p body ∧ relNodes p body = body

/-- A node with the absolute indentation `J` gives the entry. -/
inductive Den (J : Str) : Node → Entry → Prop
  | bare {s : Str} {o : Bool} : Den J (.mk (.text s) none none none [] o none) ⟨o, .bare, s⟩
  | level {cls : NodeClass} {tag : Option TagObj} {attrs : Option (List AttrVal)} {kw : Option (List (Str × AttrVal))}
      {body : List Node} {o : Bool} {s : Str} : cls ≠ .root →
      renderBody ext cls tag attrs kw (renderNodes ext body) = .ok s → Arranged body →
      Den J (.mk cls tag attrs kw body o (some J)) ⟨o, .level, s⟩
  | flush {cls : NodeClass} {tag : Option TagObj} {attrs : Option (List AttrVal)} {kw : Option (List (Str × AttrVal))}
      {body : List Node} {o : Bool} {s : Str} : cls ≠ .root →
      renderBody ext cls tag attrs kw (renderNodes ext body) = .ok s → Arranged body →
      Den J (.mk cls tag attrs kw body o (some [])) ⟨o, .flush, s⟩

/-- The same for lists. -/
inductive Dens (J : Str) : List Node → List Entry → Prop
  | nil : Dens J [] []
  | cons {n : Node} {e : Entry} {ns : List Node} {es : List Entry} : Den ext J n e → Dens J ns es → Dens J (n :: ns) (e :: es)

variable {ext}

theorem Dens.append {J : Str} {ns ns' : List Node} {es es' : List Entry} (h : Dens ext J ns es) (h' : Dens ext J ns' es') :
    Dens ext J (ns ++ ns') (es ++ es') := by
  induction h with
  | nil => exact h'
  | cons h1 _ ih => exact .cons h1 ih

theorem arranged_nil : Arranged [] := fun _ => ⟨trivial, rfl⟩

/-- The body of a node at the indentation `I`, after its nodes are placed, is rendered to `t`. -/
structure Body (I : Str) (ns : List Node) (t : Str) : Prop where
  ok : relOks I ns
  arranged : Arranged (relNodes I ns)
  text : renderNodes ext (relNodes I ns) = .ok t

theorem Den.rel {I inc : Str} {n : Node} {e : Entry} (h : Den ext (I ++ inc) n e) (hI : I.take 1 = ['\n']) (hinc : '\n' ∉ inc) :
    relOk I n ∧ (∀ p, relOk p (relNode I n) ∧ relNode p (relNode I n) = relNode I n) ∧ renderNode ext (relNode I n) = .ok (e.shown inc) := by
  cases h with
  | bare =>
    refine ⟨trivial, fun p => ⟨trivial, rfl⟩, ?_⟩
    simp [relNode, relNodes, renderNode, renderBody, applyIndent, Entry.shown, Entry.full]
    rfl
  | level hc hr hs =>
    rename_i cls tag attrs kw body o s
    have hI' : (I ++ inc).take 1 = ['\n'] := by
      cases I with
      | nil => simp at hI
      | cons c I => simpa using hI
    have hne : ¬ inc.take 1 = ['\n'] := by
      intro h
      apply hinc
      cases inc with
      | nil => simp at h
      | cons c inc => simp at h; simp [h]
    have e1 : relNode I (.mk cls tag attrs kw body o (some (I ++ inc))) = .mk cls tag attrs kw body o (some inc) := by
      simp only [relNode, hI', if_true, List.drop_left]
    refine ⟨fun _ => List.prefix_append _ _, fun p => ?_, ?_⟩
    · rw [e1]
      refine ⟨fun h => absurd h hne, ?_⟩
      simp only [relNode, hne, if_false]
    · rw [e1]
      simp only [renderNode, hr]
      have : applyIndent (some inc) ((if o = true then ['\n'] else []) ++ s) = .ok (addIndent ((if o = true then ['\n'] else []) ++ s) inc) := by
        simp only [applyIndent, hne, if_false]
      show (applyIndent (some inc) _ >>= _) = _
      rw [this]
      cases cls with
      | root => exact absurd rfl hc
      | node => rfl
      | text _ => rfl
  | flush hc hr hs =>
    rename_i cls tag attrs kw body o s
    have e1 : relNode I (.mk cls tag attrs kw body o (some [])) = .mk cls tag attrs kw body o (some []) := by
      simp [relNode]
    refine ⟨fun h => by simp at h, fun p => ?_, ?_⟩
    · rw [e1]
      refine ⟨fun h => by simp at h, ?_⟩
      simp [relNode]
    · rw [e1]
      simp only [renderNode, hr]
      have : applyIndent (some []) ((if o = true then ['\n'] else []) ++ s) = .ok ((if o = true then ['\n'] else []) ++ s) := by
        simp [applyIndent, addIndent]
      show (applyIndent (some []) ((if o = true then ['\n'] else []) ++ s) >>= _) = _
      rw [this]
      cases cls with
      | root => exact absurd rfl hc
      | node => rfl
      | text _ => rfl

theorem Dens.body {I inc : Str} {ns : List Node} {es : List Entry} (h : Dens ext (I ++ inc) ns es) (hI : I.take 1 = ['\n'])
    (hinc : '\n' ∉ inc) : Body (ext := ext) I ns (shownAll inc es) := by
  induction ns generalizing es with
  | nil => cases h with | nil => exact ⟨trivial, arranged_nil, rfl⟩
  | cons n ns ih =>
    cases h with
    | cons h1 h2 =>
      obtain ⟨a1, a2, a3⟩ := h1.rel hI hinc
      obtain ⟨b1, b2, b3⟩ := ih h2
      refine ⟨⟨a1, b1⟩, fun p => ⟨⟨(a2 p).1, (b2 p).1⟩, ?_⟩, ?_⟩
      · simp only [relNodes, (a2 p).2, (b2 p).2]
      · simp only [relNodes, renderNodes, a3, b3]
        rfl

/-- A tag around a body. -/
theorem Body.wrap {I : Str} {ns : List Node} {t s : Str} (h : Body (ext := ext) I ns t) {tag : TagObj} {attrs : Option (List AttrVal)}
    {kw : Option (List (Str × AttrVal))} (he : expandTag ext tag (.ok t) (attrs.getD []) (kw.getD []) = .ok s) :
    Body (ext := ext) I [.mk .node (some tag) attrs kw ns false none] s := by
  refine ⟨⟨h.ok, trivial⟩, fun p => ⟨⟨(h.arranged p).1, trivial⟩, ?_⟩, ?_⟩
  · simp only [relNodes, relNode, (h.arranged p).2]
  · have : renderBody ext .node (some tag) attrs kw (renderNodes ext (relNodes I ns)) = .ok s := by
      rw [h.text]; exact he
    simp only [relNodes, relNode, renderNodes, renderNode, this]
    simp [applyIndent]
    rfl

/-- A tagged node is placed at the indentation `I`. -/
theorem Body.indent {I : Str} {ns : List Node} {t s : Str} (h : Body (ext := ext) I ns t) {tag : TagObj} {attrs : Option (List AttrVal)}
    {kw : Option (List (Str × AttrVal))} (he : expandTag ext tag (.ok t) (attrs.getD []) (kw.getD []) = .ok s) (o : Bool) (i : Option Str) :
    indentOk I (.mk .node (some tag) attrs kw ns o i) ∧
    Den ext I (indentNode I (.mk .node (some tag) attrs kw ns o i)) ⟨o, .level, s⟩ := by
  refine ⟨h.ok, .level (by simp) ?_ h.arranged⟩
  rw [h.text]; exact he

/-- Nodes are moved to another indentation. -/
theorem Den.indent {J : Str} {n : Node} {e : Entry} (h : Den ext J n e) (K : Str) :
    indentOk K n ∧ Den ext K (indentNode K n) { e with place := .level } := by
  cases h with
  | bare => exact ⟨trivial, .level (by simp) rfl arranged_nil⟩
  | level hc hr hs =>
    rename_i cls tag attrs kw body o s
    cases cls with
    | root => exact absurd rfl hc
    | text s' => exact ⟨trivial, .level (by simp) hr hs⟩
    | node =>
      refine ⟨(hs K).1, ?_⟩
      simp only [indentNode, (hs K).2]
      exact .level (by simp) hr hs
  | flush hc hr hs =>
    rename_i cls tag attrs kw body o s
    cases cls with
    | root => exact absurd rfl hc
    | text s' => exact ⟨trivial, .level (by simp) hr hs⟩
    | node =>
      refine ⟨(hs K).1, ?_⟩
      simp only [indentNode, (hs K).2]
      exact .level (by simp) hr hs

/-- Nodes are moved to the left margin. -/
theorem Den.dedent {J : Str} {n : Node} {e : Entry} (h : Den ext J n e) :
    indentOk [] n ∧ Den ext J (indentNode [] n) { e with place := .flush } := by
  cases h with
  | bare => exact ⟨trivial, .flush (by simp) rfl arranged_nil⟩
  | level hc hr hs =>
    rename_i cls tag attrs kw body o s
    cases cls with
    | root => exact absurd rfl hc
    | text s' => exact ⟨trivial, .flush (by simp) hr hs⟩
    | node =>
      refine ⟨(hs []).1, ?_⟩
      simp only [indentNode, (hs []).2]
      exact .flush (by simp) hr hs
  | flush hc hr hs =>
    rename_i cls tag attrs kw body o s
    cases cls with
    | root => exact absurd rfl hc
    | text s' => exact ⟨trivial, .flush (by simp) hr hs⟩
    | node =>
      refine ⟨(hs []).1, ?_⟩
      simp only [indentNode, (hs []).2]
      exact .flush (by simp) hr hs

theorem Den.outlined {J : Str} {n : Node} {e : Entry} (h : Den ext J n e) (o : Bool) :
    Den ext J (outlineNode o n) { e with outline := o } := by
  cases h with
  | bare => exact .bare
  | level hc hr hs => exact .level hc hr hs
  | flush hc hr hs => exact .flush hc hr hs

theorem Dens.indent {J : Str} {ns : List Node} {es : List Entry} (h : Dens ext J ns es) (K : Str) :
    (∀ n ∈ ns, indentOk K n) ∧ Dens ext K (ns.map (indentNode K)) (es.map (fun e => { e with place := .level })) := by
  induction h with
  | nil => exact ⟨by simp, .nil⟩
  | cons h1 _ ih => exact ⟨by simpa using ⟨(h1.indent K).1, ih.1⟩, .cons (h1.indent K).2 ih.2⟩

theorem Dens.dedent {J : Str} {ns : List Node} {es : List Entry} (h : Dens ext J ns es) :
    (∀ n ∈ ns, indentOk [] n) ∧ Dens ext J (ns.map (indentNode [])) (es.map (fun e => { e with place := .flush })) := by
  induction h with
  | nil => exact ⟨by simp, .nil⟩
  | cons h1 _ ih => exact ⟨by simpa using ⟨h1.dedent.1, ih.1⟩, .cons h1.dedent.2 ih.2⟩

end
end Verif
