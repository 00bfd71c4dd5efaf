import Verif.Lemmas.Pages
import Verif.Props.Imports
import Verif.Props.Scripts

/-! Whole pages: from the template to the text of the document. -/

namespace Verif
open Py Spec

section
variable {P X W I : Type} {E : Env P X W} {σ : StateId} {A : Store P W} {b : List (Str × SlotInfo)} {M : Marks}
  {names : Str → Option Char} {void : Str → Option Bool} {env : Str → Str} {tagOf : P → TagObj} {strOf : Val P → Str}
  {ext : Nat → Except RenderErr Str → List AttrVal → List (Str × AttrVal) → Except RenderErr Str} {src : Source P I}

/-! ### The document -/

theorem readSymbols_ok (σ : StateId) (l : List (Str × Slot)) (M : Machine P W) :
    ∃ d, (readSymbols σ l : Comp P X W _) M = (.ok d, M) := by
  induction l with
  | nil => exact ⟨[], rfl⟩
  | cons a l ih =>
    obtain ⟨sym, sl⟩ := a
    obtain ⟨d, hd⟩ := ih
    rw [readSymbols]
    have : (getSlot σ sl : Comp P X W _) M = (.ok ((M.states σ).values sl), M) := rfl
    rw [Comp.bind_ok this, Comp.bind_ok hd]
    cases (M.states σ).values sl with
    | none => exact ⟨d, rfl⟩
    | some v => exact ⟨(sym, v) :: d, rfl⟩

/-- The text of a document whose statements show `es`. -/
theorem document_shows {doc : Document P} {Z : List Entry → Store P W → Prop} {Mm M1 : Machine P W}
    (hs : setSlots (X := X) σ doc.slotsIn Mm = (.ok (), M1)) (hA : M1.store = A) (hi : A.ind σ = ['\n'])
    (h : ShowsAll E σ tagOf strOf ext .none doc.children A [] Z) :
    ∃ (root : Nat) (syms : Dict Str (Val P)) (M' : Machine P W) (node : Node) (es : List Entry),
      translDocument E σ doc Mm = (.ok (root, syms), M') ∧ Z es M'.store ∧ Unfolds tagOf strOf M'.mem.nodes root node ∧
      renderNode ext node = .ok (dropLine (shownAll [] es)) := by
  unfold ShowsAll at h
  rw [hi] at h
  have hb : ∀ ns es, Dens ext (['\n'] ++ []) ns es → Body (ext := ext) ['\n'] ns (shownAll [] es) := fun ns es h => h.body rfl (by simp)
  have hr := Makes.trans h (Q' := fun ns B => ∃ ms es, ns = [.mk .root none none none (relNodes ['\n'] ms) false (some ['\n'])] ∧
      Dens ext (['\n'] ++ []) ms es ∧ Z es B) (f := fun rs => do let r ← newNode .root rs (some ['\n']) none none none; return [r]) (by
    rintro ns B ⟨es, hd, hz⟩
    refine (transforms_node_at (X := X) (tagOf := tagOf) (strOf := strOf) .root ['\n'] none none none B _
      (by rintro _ rfl; exact (hb _ _ hd).ok)).mono ?_
    rintro _ _ ⟨rfl, ms, rfl, rfl⟩
    exact ⟨_, es, rfl, hd, hz⟩)
  obtain ⟨rs, M2, ns, F, g1, -, -, g5, -, ms, es, rfl, g8, g2⟩ := hr M1 [] [] hA .nil (by simp) trivial
  have hbd := hb _ _ g8
  obtain ⟨ns0, M3, k1, k2⟩ := Comp.bind_eq_ok.1 g1
  obtain ⟨root, M4, k3, k4⟩ := Comp.bind_eq_ok.1 k2
  cases k4
  cases g5 with
  | cons h1 h2 _ =>
    cases h2
    have hnode : ∃ node F, HRep1 tagOf strOf (putNode M2 root { M2.mem.nodes root with indent := some [] }).mem.nodes root node F ∧
        renderNode ext node = .ok (dropLine (shownAll [] es)) := by
      refine ⟨_, _, h1.put (d := { M2.mem.nodes root with indent := some [] }) rfl, ?_⟩
      have key : ∀ n F, HRep1 tagOf strOf M2.mem.nodes root n F → (n.body = relNodes ['\n'] ms ∧ n = .mk .root none none none (relNodes ['\n'] ms) false (some ['\n'])) →
          toNode tagOf strOf { M2.mem.nodes root with indent := some [] } n.body = .mk .root none none none (relNodes ['\n'] ms) false (some []) := by
        rintro n F hn ⟨hb, e⟩
        cases hn with
        | mk e' _ _ =>
          subst e'
          simp only [toNode, Node.mk.injEq] at e
          simp [toNode, e, Node.body]
      rw [key _ _ h1 ⟨rfl, rfl⟩]
      simp only [renderNode, renderBody, hbd.text]
      simp [applyIndent, addIndent]
      rfl
    obtain ⟨node, F', hp, hrn⟩ := hnode
    obtain ⟨d, hd⟩ := readSymbols_ok (X := X) σ doc.slotsOut (putNode M2 root { M2.mem.nodes root with indent := some [] })
    refine ⟨root, d, putNode M2 root { M2.mem.nodes root with indent := some [] }, node, es, ?_, g2, hp.unfolds, hrn⟩
    unfold translDocument
    rw [Comp.bind_ok hs, Comp.bind_ok k1, Comp.bind_ok k3]
    have : (readNode root : Comp P X W _) M2 = (.ok (M2.mem.nodes root), M2) := rfl
    rw [Comp.bind_ok this, Comp.bind_ok (writeNode_run _ _ M2), Comp.bind_ok hd]
    rfl

/-! ### Names known from the beginning -/

theorem valueSlots_ok (l : List (Str × Val P)) (hl : ∀ x ∈ l, validSymbol x.1 = true) (c : Ctx) :
    ∃ r, (valueSlots l c : Except (AErr I) _) = .ok r := by
  induction l generalizing c with
  | nil => exact ⟨_, rfl⟩
  | cons a l ih =>
    obtain ⟨sym, v⟩ := a
    have hv : validSymbol sym = true := hl (sym, v) (by simp)
    simp only [valueSlots, newSlot, hv, if_true]
    obtain ⟨⟨l', c'⟩, h⟩ := ih (fun x hx => hl x (by simp [hx])) ({ c.push sym { id := c.next, depth := c.regular } with next := c.next + 1 })
    refine ⟨((sym, c.next, v) :: l', c'), ?_⟩
    show (valueSlots l _ >>= _) = _
    rw [h]; rfl

theorem setSlots_indent (σ : StateId) (l : List (Slot × Val P)) : ∀ Mm M' : Machine P W, setSlots (X := X) σ l Mm = (.ok (), M') →
    (M'.states σ).indentation = (Mm.states σ).indentation := by
  induction l with
  | nil => intro Mm M' h; cases h; rfl
  | cons a l ih =>
    obtain ⟨sl, v⟩ := a
    intro Mm M' h
    rw [setSlots] at h
    obtain ⟨u, M1, h1, h2⟩ := Comp.bind_eq_ok.1 h
    rw [ih _ _ h2]
    cases h1
    simp [Machine.updState]

/-- The names are bound to slots that hold their values. -/
theorem globals_bound (first : Slot) (globals : Dict Str (Val P)) (hv : ∀ x ∈ globals, validSymbol x.1 = true)
    (hk : (Dict.keys globals).Nodup) (Mm : Machine P W) :
    ∃ ins c1 M1, (valueSlots globals { next := first } : Except (AErr I) _) = .ok (ins, c1) ∧
      setSlots (X := X) σ (ins.map Prod.snd) Mm = (.ok (), M1) ∧
      ∀ sym v, Dict.get? globals sym = some v → ∃ sl, lookupBind c1.binds sym = some sl ∧ (M1.states σ).values sl.id = some v := by
  obtain ⟨⟨ins, c1⟩, h⟩ := valueSlots_ok (I := I) globals hv { next := first }
  have hp := valueSlots_eq (I := I) globals { next := first }
  obtain ⟨k1, k2, k3, k4, k5⟩ := hp _ h
  have k1 : c1.binds = _ := k1
  have hlk : (Dict.keys ins).Nodup := by
    have : Dict.keys ins = Dict.keys globals := by
      have : Dict.keys globals = (ins.map (fun x => (x.1, x.2.2))).map (·.1) := by rw [k2]; rfl
      rw [this, List.map_map]; rfl
    rw [this]; exact hk
  obtain ⟨M1, t1, t2, -⟩ := setSlots_run (X := X) σ (ins.map Prod.snd) (by rw [List.map_map]; exact k4) Mm
  refine ⟨ins, c1, M1, h, t1, fun sym v hg => ?_⟩
  have hmem : (sym, v) ∈ ins.map (fun x => (x.1, x.2.2)) := by rw [k2]; exact get?_mem hg
  obtain ⟨⟨sy, sl, w⟩, hx, e⟩ := List.mem_map.1 hmem
  simp only [Prod.mk.injEq] at e
  obtain ⟨rfl, rfl⟩ := e
  refine ⟨⟨sl, Ctx.regular { next := first }⟩, ?_, t2 (sl, w) (List.mem_map.2 ⟨_, hx, rfl⟩)⟩
  · rw [k1]
    simp only [List.nil_append]
    rw [lookupBind_map hlk, get?_of_mem hlk hx]
    rfl

theorem qualified_none {c : Comp P X W (Val P)} {v : Val P} {A A1 A2 : Store P W} {t : Bool} (h : Evals c A v A1)
    (ht : Evals (truthOf E v) A1 t A2) : Evals (qualified E none c) A v A2 := by
  intro Mm hM
  show qualStep E none (c Mm) = _
  rw [h Mm hM]
  show (qualCheck E none v) _ = _
  unfold qualCheck
  rw [Comp.bind_ok (ht (Mm.withStore A1) rfl)]
  cases t <;> rfl

theorem dropLine_flat (ls : List Str) : dropLine (flat ls) = join ['\n'] ls := by
  cases ls with
  | nil => rfl
  | cons l ls => rw [flat_cons_drop]; rfl

theorem mapShift_nil (ls : List Str) : ls.map (shift []) = ls := by
  have : (shift [] : Str → Str) = id := by
    funext l; cases l <;> simp [shift]
  rw [this, List.map_id]

theorem Spec.PiecesOk.mono {known known' : Str → Prop} (hk : ∀ x, known x → known' x) {q : Bool} : ∀ {ps : List Piece},
    PiecesOk M known q ps → PiecesOk M known' q ps
  | [], _ => trivial
  | .lit _ :: _, h => ⟨h.1, PiecesOk.mono hk h.2⟩
  | .expr _ :: _, h => ⟨hk _ h.1, h.2.1, h.2.2.1, PiecesOk.mono hk h.2.2.2⟩

theorem Spec.ContentOk.mono {known known' : Str → Prop} (hk : ∀ x, known x → known' x) {c : Content} (h : ContentOk M env known c) :
    ContentOk M env known' c := by
  cases c with
  | verbat s => exact h
  | normal ps => exact ⟨h.1.mono hk, h.2⟩
  | markup ps => exact ⟨h.1.mono hk, h.2⟩

theorem Spec.ElemOk.mono {known known' : Str → Prop} (hk : ∀ x, known x → known' x) {e : Elem} (h : ElemOk M known e) : ElemOk M known' e :=
  ⟨h.name, h.names, h.distinct, fun a ha => (h.values a ha).mono hk⟩

theorem Spec.ElemsOk.mono {known known' : Str → Prop} (hk : ∀ x, known x → known' x) {last : Bool} : ∀ {es : List Elem},
    ElemsOk M void known last es → ElemsOk M void known' last es
  | [_], h => ⟨h.1.mono hk, h.2⟩
  | _ :: e' :: es, h => ⟨h.1.mono hk, h.2.1, ElemsOk.mono (es := e' :: es) hk h.2.2⟩

mutual
theorem Spec.Page.Ok.mono {known known' : Str → Prop} (hk : ∀ x, known x → known' x) : ∀ {d : Page}, d.Ok M void env known → d.Ok M void env known'
  | .nil, _ => by simp only [Page.Ok]
  | .cons _ _ _, h => by
    simp only [Page.Ok] at h ⊢
    exact ⟨PageBlock.Ok.mono hk h.1, Page.Ok.mono hk h.2⟩
theorem Spec.PageBlock.Ok.mono {known known' : Str → Prop} (hk : ∀ x, known x → known' x) : ∀ {d : PageBlock}, d.Ok M void env known → d.Ok M void env known'
  | .text _, h => by
    simp only [PageBlock.Ok] at h ⊢
    exact h.mono hk
  | .inline _ _, h => by
    simp only [PageBlock.Ok] at h ⊢
    exact ⟨h.1.mono hk, h.2.mono hk⟩
  | .empty _, h => by
    simp only [PageBlock.Ok] at h ⊢
    exact h.mono hk
  | .nested _ _ _, h => by
    simp only [PageBlock.Ok] at h ⊢
    exact ⟨h.1.mono hk, h.2.1, h.2.2.1, h.2.2.2.1, Page.Ok.mono hk h.2.2.2.2⟩
  | .comment _, h => by
    simp only [PageBlock.Ok] at h ⊢
    exact h
end

end
end Verif
