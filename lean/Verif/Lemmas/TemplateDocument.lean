import Verif.Lemmas.Templates
import Verif.Lemmas.DomTree

/-! Templates from the script to the document; pages as templates. -/

namespace Verif
open Py Spec Ctx

section
variable {P X W I : Type} {E : Env P X W} {D : PyData E.ops E.fuel} {σ : StateId} {tagOf : P → TagObj} {strOf : Val P → Str}
variable {ext : Nat → Except RenderErr Str → List AttrVal → List (Str × AttrVal) → Except RenderErr Str}
variable {void : Str → Option Bool} {src : Source P I} {names : Str → Option Char}

/-- No slots but those of bindings. -/
theorem Ctx.Good.plain {c : Ctx} (h1 : ∀ b ∈ c.binds, b.2.id < c.next) (h2 : ∀ b ∈ c.binds, ∀ b' ∈ c.binds, b.2.id = b'.2.id → b.1 = b'.1) :
    c.Good (Setting.plain P W) :=
  ⟨h1, h2, fun _ _ h => h, fun _ h => h.elim, fun _ h => h.elim, Nat.zero_le _, fun _ _ _ => ⟨Nat.zero_le _, fun h => h.elim⟩, Nat.zero_le _⟩

theorem valueSlots_good (l : List (Str × Val P)) : ∀ c : Ctx, c.Good (Setting.plain P W) → (∀ b ∈ c.binds, b.1 ∉ l.map Prod.fst) → (l.map Prod.fst).Nodup →
    Post (fun r => r.2.Good (Setting.plain P W)) (valueSlots l c : Except (AErr I) _) := by
  induction l with
  | nil => exact fun c h _ _ => .pure h
  | cons a l ih =>
    obtain ⟨sym, v⟩ := a
    intro c h hd hn
    simp only [List.map_cons, List.nodup_cons] at hn
    simp only [valueSlots]
    refine Post.bind (Q := fun r => r = (⟨c.next, c.regular⟩,
      { c.push sym ⟨c.next, c.regular⟩ with next := c.next + 1 })) ?_ ?_
    · unfold newSlot
      split
      · exact .ok rfl
      · exact .error
    · rintro ⟨sl, c1⟩ h1
      simp only [Prod.mk.injEq] at h1
      obtain ⟨rfl, rfl⟩ := h1
      refine Post.bind (ih _ ?_ ?_ hn.2) (fun r hr => .pure hr)
      · refine Ctx.Good.plain ?_ ?_
        · intro b hb
          rcases List.mem_append.1 (show b ∈ c.binds ++ [(sym, _)] from hb) with hb | hb
          · exact Nat.lt_succ_of_lt (h.made b hb)
          · simp only [List.mem_singleton] at hb
            subst hb
            exact Nat.lt_succ_self _
        · intro b hb b' hb' e
          rcases List.mem_append.1 (show b ∈ c.binds ++ [(sym, _)] from hb) with hb | hb <;>
          rcases List.mem_append.1 (show b' ∈ c.binds ++ [(sym, _)] from hb') with hb' | hb'
          · exact h.own b hb b' hb' e
          · simp only [List.mem_singleton] at hb'
            subst hb'
            exact absurd (h.made b hb) (by rw [e]; exact Nat.lt_irrefl _)
          · simp only [List.mem_singleton] at hb
            subst hb
            exact absurd (h.made b' hb') (by rw [← e]; exact Nat.lt_irrefl _)
          · simp only [List.mem_singleton] at hb hb'
            rw [hb, hb']
      · intro b hb
        rcases List.mem_append.1 (show b ∈ c.binds ++ [(sym, _)] from hb) with hb | hb
        · have := hd b hb
          simp only [List.map_cons, List.mem_cons, not_or] at this
          exact this.2
        · simp only [List.mem_singleton] at hb
          subst hb
          exact hn.1

/-- A template, from the script to the text. -/
theorem template_document {Mk : Marks} {U : Uni} [MarksApart Mk U] (hE : EscapesHtml E) {first : Slot} {globals : Dict Str (Val P)}
    (hv : ∀ x ∈ globals, validSymbol x.1 = true) (hk : (Dict.keys globals).Nodup) {Mm : Machine P W}
    (hi : (Mm.states σ).indentation = ['\n'])
    (ht : ∀ n v, void n = some v → ∃ p, Dict.get? globals ('%' :: n) = some (.py p) ∧ E.ops.isTag p = true ∧ tagOf p = .markup n v .html)
    {Γ : Str → Prop} {ρ : Vars} (hx : ∀ y, Γ y → ∃ v d, Dict.get? globals ('$' :: y) = some v ∧ ρ y = some d ∧ D.rep v d)
    {T : Tmpl} (hT : T.Plain Mk void Γ) (hok : ItemsOk T.items) (hne : T.items ≠ []) {cs : List Chunk}
    (ho : T.out (fun n => (void n).getD false) noLib ρ [] = some cs) :
    ∃ ss doc root syms M' node, loadScript Mk U names (itemText T.items) = .ok ss ∧ analyseDocument src first globals ss = .ok doc ∧
      translDocument E σ doc Mm = (.ok (root, syms), M') ∧ Unfolds tagOf strOf M'.mem.nodes root node ∧
      renderNode ext node = .ok (join ['\n'] (chunkLines cs)) := by
  obtain ⟨ins, c1, M1, h1, h2, h3⟩ := globals_bound (I := I) (X := X) (σ := σ) first globals hv hk Mm
  have hg : c1.Good (Setting.plain P W) := valueSlots_good (I := I) globals { next := first } (.plain (by simp) (by simp)) (by simp) hk _ h1
  have hS : Situ E D σ tagOf void c1.binds Γ ρ M1.store := by
    refine ⟨fun y hy => ?_, fun n v hn => ?_⟩
    · obtain ⟨v, d, g1, g2, g3⟩ := hx y hy
      obtain ⟨sl, k1, k2⟩ := h3 _ _ g1
      exact ⟨sl, v, d, k1, k2, g2, g3⟩
    · obtain ⟨p, g1, g2, g3⟩ := ht n v hn
      obtain ⟨sl, k1, k2⟩ := h3 _ _ g1
      exact ⟨sl, k1, fun _ => ⟨p, k2, g2, g3⟩⟩
  have hb : Bound (Setting.plain P W) Γ void c1.binds := by
    refine ⟨?_, fun _ h => h.elim⟩
    rintro sym ((⟨y, hy, rfl⟩ | ⟨n, v, hn, rfl⟩) | ⟨n, h, hn, -⟩ | ⟨b, hb, -⟩)
    · obtain ⟨sl, _, _, h, _⟩ := hS.vars y hy
      exact ⟨sl, h⟩
    · obtain ⟨sl, h, _⟩ := hS.tags n v hn
      exact ⟨sl, h⟩
    · cases hn
    · cases hb
  have hind : M1.store.ind σ = ['\n'] := (setSlots_indent σ _ _ _ h2).trans hi
  obtain ⟨ss, ss', c2, b1, b5, -, b3⟩ := Tmpl.made (D := D) (σ := σ) (tagOf := tagOf) (strOf := strOf) (ext := ext) (src := src) (names := names)
    (L := .plain P W) ⟨fun _ _ _ _ => trivial, fun _ h => h.elim⟩ ⟨nofun, nofun, nofun⟩ (MarksApart.high (U := U)) hE T Γ false hT c1 hg hb
  have b7 := b3 ρ [] M1.store [] cs ⟨hS, nofun, nofun, trivial⟩ (by rw [hind]; rfl) ho
  obtain ⟨root, syms, M', node, es, e1, ⟨-, b8⟩, e3, e4⟩ := document_shows (X := X)
    (doc := { slotsIn := ins.map Prod.snd, children := ss',
              slotsOut := (Dict.update [] (c2.binds.drop c1.binds.length)).map (fun p => (p.1, p.2.id)) }) h2 rfl hind b7
  refine ⟨ss, _, root, syms, M', node, C77_script Mk U P names hne hok (b1 0), ?_, e1, e3, ?_⟩
  · unfold analyseDocument
    rw [h1]
    show (analyseAll src ss c1 >>= _) = _
    rw [b5]; rfl
  · rw [e4, b8.shown [] (by simp), mapShift_nil, dropLine_flat]

end

/-! ### Pages as templates -/

mutual
/-- A page is a template without conditions, loops and assignments. -/
def Spec.Page.tmpl : Page → Tmpl
  | .nil => .nil
  | .cons m b rest => .cons m b.tmpl rest.tmpl
/-- The same for a block. -/
def Spec.PageBlock.tmpl : PageBlock → TmplBlock
  | .text c => .text c
  | .inline es c => .inline es c
  | .empty es => .empty es
  | .nested es inc body => .nested es inc body.tmpl
  | .comment s => .comment s
end

theorem page_tmpl_source : ∀ b : PageBlock, b.tmpl.source = b.source
  | .text _ => by simp [PageBlock.tmpl, TmplBlock.source, PageBlock.source]
  | .inline _ _ => by simp [PageBlock.tmpl, TmplBlock.source, PageBlock.source]
  | .empty _ => by simp [PageBlock.tmpl, TmplBlock.source, PageBlock.source]
  | .nested _ _ _ => by simp [PageBlock.tmpl, TmplBlock.source, PageBlock.source]
  | .comment _ => by simp [PageBlock.tmpl, TmplBlock.source, PageBlock.source]

theorem page_tmpl_scope (Γ : Str → Prop) : ∀ b : PageBlock, b.tmpl.scope Γ = Γ
  | .text _ => by simp [PageBlock.tmpl, TmplBlock.scope]
  | .inline _ _ => by simp [PageBlock.tmpl, TmplBlock.scope]
  | .empty _ => by simp [PageBlock.tmpl, TmplBlock.scope]
  | .nested _ _ _ => by simp [PageBlock.tmpl, TmplBlock.scope]
  | .comment _ => by simp [PageBlock.tmpl, TmplBlock.scope]

theorem page_tmpl_after (ρ : Vars) : ∀ b : PageBlock, b.tmpl.after ρ = ρ
  | .text _ => by simp [PageBlock.tmpl, TmplBlock.after]
  | .inline _ _ => by simp [PageBlock.tmpl, TmplBlock.after]
  | .empty _ => by simp [PageBlock.tmpl, TmplBlock.after]
  | .nested _ _ _ => by simp [PageBlock.tmpl, TmplBlock.after]
  | .comment _ => by simp [PageBlock.tmpl, TmplBlock.after]

mutual
theorem page_tmpl_items : ∀ d : Page, d.tmpl.items = d.items
  | .nil => by simp [Page.tmpl, Tmpl.items, Page.items]
  | .cons m b rest => by
    simp only [Page.tmpl, Tmpl.items, Page.items]
    rw [page_tmpl_items rest, page_tmpl_under b, page_tmpl_source]
theorem page_tmpl_under : ∀ b : PageBlock, b.tmpl.under = b.under
  | .text _ => by simp [PageBlock.tmpl, TmplBlock.under, PageBlock.under]
  | .inline _ _ => by simp [PageBlock.tmpl, TmplBlock.under, PageBlock.under]
  | .empty _ => by simp [PageBlock.tmpl, TmplBlock.under, PageBlock.under]
  | .nested _ _ body => by
    simp only [PageBlock.tmpl, TmplBlock.under, PageBlock.under]
    rw [page_tmpl_items body]
  | .comment _ => by simp [PageBlock.tmpl, TmplBlock.under, PageBlock.under]
end

section
variable {M : Marks} {void : Str → Option Bool} {env env' : Str → Str} {known : Str → Prop}

theorem Spec.ContentOk.oneLine {c : Content} (h : ContentOk M env known c) : '\n' ∉ c.html env := by
  cases c with
  | verbat s => exact fun hm => (h.2 _ hm).1 rfl
  | normal ps => exact htmlEscape_oneLine h.2.2
  | markup ps => exact h.2.2

mutual
theorem page_tmpl_ok {Γ : Str → Prop} : ∀ d : Page, d.Ok M void env (PathOk Γ) → d.tmpl.Plain M void Γ
  | .nil, _ => by simp only [Page.tmpl, Tmpl.Ok]
  | .cons m b rest, h => by
    simp only [Page.Ok] at h
    simp only [Page.tmpl, Tmpl.Ok, page_tmpl_scope]
    exact .inl ⟨pageBlock_tmpl_ok b h.1, page_tmpl_ok rest h.2⟩
theorem pageBlock_tmpl_ok {Γ : Str → Prop} : ∀ d : PageBlock, d.Ok M void env (PathOk Γ) → d.tmpl.Ok M void noSigs none Γ false
  | .text c, h => by
    simp only [PageBlock.Ok] at h
    simp only [PageBlock.tmpl, TmplBlock.Ok]
    exact h.writable
  | .inline es c, h => by
    simp only [PageBlock.Ok] at h
    simp only [PageBlock.tmpl, TmplBlock.Ok]
    exact ⟨h.1, h.2.writable⟩
  | .empty es, h => by
    simp only [PageBlock.Ok] at h
    simp only [PageBlock.tmpl, TmplBlock.Ok]
    exact h
  | .nested es inc body, h => by
    simp only [PageBlock.Ok] at h
    simp only [PageBlock.tmpl, TmplBlock.Ok, page_tmpl_items]
    exact ⟨h.1, h.2.1, h.2.2.1, h.2.2.2.1, page_tmpl_ok body h.2.2.2.2⟩
  | .comment s, h => by
    simp only [PageBlock.Ok] at h
    simp only [PageBlock.tmpl, TmplBlock.Ok]
    exact h
end

section
variable {ρ : Vars} (hρ : ∀ x, known x → ρ.text x = some (env x))
include hρ

theorem env_known {x : Str} (h : known x) : ρ.env x = env x := by
  unfold Vars.env; rw [hρ x h]; rfl

theorem prints_known {q : Bool} : ∀ {ps : List Piece}, PiecesOk M known q ps → ρ.prints ps = true ∧ piecesValue ρ.env ps = piecesValue env ps
  | [], _ => ⟨rfl, rfl⟩
  | .lit s :: ps, h => by
    have ih := prints_known h.2
    refine ⟨?_, by rw [piecesValue, piecesValue, ih.2]⟩
    have := ih.1
    unfold Vars.prints at this ⊢
    simpa using this
  | .expr x :: ps, h => by
    have ih := prints_known h.2.2.2
    refine ⟨?_, by rw [piecesValue, piecesValue, ih.2, env_known hρ h.1]⟩
    have := ih.1
    unfold Vars.prints at this ⊢
    simp only [List.all_cons, hρ x h.1, Bool.and_eq_true]
    exact ⟨rfl, this⟩

theorem html_known {c : Content} (h : ContentOk M env known c) : ρ.shows c = true ∧ c.html ρ.env = c.html env := by
  have e : c.html ρ.env = c.html env := by
    cases c with
    | verbat s => rfl
    | normal ps => simp only [Content.html]; rw [(prints_known hρ h.1).2]
    | markup ps => simp only [Content.html]; rw [(prints_known hρ h.1).2]
  refine ⟨?_, e⟩
  unfold Vars.shows
  rw [e]
  have := h.oneLine
  cases c with
  | verbat s => simpa using this
  | normal ps => simpa [(prints_known hρ h.1).1] using this
  | markup ps => simpa [(prints_known hρ h.1).1] using this

theorem head_known {e : Elem} (h : ElemOk M known e) : e.head ρ.env = e.head env := by
  unfold Elem.head
  congr 1
  refine flatMap_congr_mem (fun a ha => ?_)
  rw [(prints_known hρ (h.values a ha)).2]

theorem opens_known {es : List Elem} (h : ∀ e ∈ es, ElemOk M known e) : ρ.opens es = true ∧ startTags ρ.env es = startTags env es := by
  constructor
  · unfold Vars.opens
    simp only [List.all_eq_true]
    exact fun e he a ha => (prints_known hρ ((h e he).values a ha)).1
  · unfold startTags
    exact flatMap_congr_mem (fun e he => by rw [head_known hρ (h e he)])

theorem emptyTags_known (vd : Str → Bool) : ∀ {es : List Elem}, (∀ e ∈ es, ElemOk M known e) → emptyTags vd ρ.env es = emptyTags vd env es
  | [], _ => rfl
  | [e], h => by simp only [emptyTags]; rw [head_known hρ (h e (by simp))]
  | e :: e' :: es, h => by
    simp only [emptyTags]
    rw [head_known hρ (h e (by simp)), emptyTags_known vd (es := e' :: es) (fun x hx => h x (List.mem_cons_of_mem _ hx))]

theorem aroundLines_known (vd : Str → Bool) {es : List Elem} (h : ∀ e ∈ es, ElemOk M known e) (inc : Str) (ls : List Str) :
    aroundLines vd ρ.env es inc ls = aroundLines vd env es inc ls := by
  cases ls with
  | nil => simp only [aroundLines]; rw [emptyTags_known hρ vd h]
  | cons l ls => simp only [aroundLines]; rw [(opens_known hρ h).2]

omit hρ in
theorem chunkLines_gap (m : Nat) : chunkLines (gap m) = List.replicate m [] := by
  cases m with
  | zero => rfl
  | succ m => simp [gap, chunkLines, Chunk.lines]

set_option linter.unusedSectionVars false in
mutual
theorem page_tmpl_out (vd : Str → Bool) : ∀ d : Page, d.Ok M void env known → ∃ cs, d.tmpl.out vd noLib ρ [] = some cs ∧ chunkLines cs = d.lines vd env
  | .nil, _ => ⟨[], by simp only [Page.tmpl, Tmpl.out], by simp [Page.lines, chunkLines]⟩
  | .cons m b rest, h => by
    simp only [Page.Ok] at h
    obtain ⟨cs, h1, h2⟩ := pageBlock_tmpl_out vd b h.1
    obtain ⟨cs', h3, h4⟩ := page_tmpl_out vd rest h.2
    refine ⟨gap m ++ (cs ++ cs'), ?_, ?_⟩
    · simp only [Page.tmpl, Tmpl.out, page_tmpl_after]
      rw [h1, h3]; rfl
    · simp only [Page.lines]
      rw [← h2, ← h4, ← chunkLines_gap]
      simp [chunkLines]
theorem pageBlock_tmpl_out (vd : Str → Bool) : ∀ d : PageBlock, d.Ok M void env known → ∃ cs, d.tmpl.out vd noLib ρ [] = some cs ∧ chunkLines cs = d.lines vd env
  | .text c, h => by
    simp only [PageBlock.Ok] at h
    simp only [PageBlock.tmpl, TmplBlock.out, PageBlock.lines, html_known hρ h, if_true]
    exact ⟨_, rfl, by simp [chunkLines, Chunk.lines]⟩
  | .inline es c, h => by
    simp only [PageBlock.Ok] at h
    simp only [PageBlock.tmpl, TmplBlock.out, PageBlock.lines, html_known hρ h.2, opens_known hρ h.1.all, and_self, if_true]
    exact ⟨_, rfl, by simp [chunkLines, Chunk.lines]⟩
  | .empty es, h => by
    simp only [PageBlock.Ok] at h
    simp only [PageBlock.tmpl, TmplBlock.out, PageBlock.lines, opens_known hρ h.all, emptyTags_known hρ vd h.all, if_true]
    exact ⟨_, rfl, by simp [chunkLines, Chunk.lines]⟩
  | .nested es inc body, h => by
    simp only [PageBlock.Ok] at h
    obtain ⟨cs, h1, h2⟩ := page_tmpl_out vd body h.2.2.2.2
    simp only [PageBlock.tmpl, TmplBlock.out, PageBlock.lines, opens_known hρ h.1.all, if_true, h1, Option.map_some]
    exact ⟨_, rfl, by simp [chunkLines, Chunk.lines, aroundLines_known hρ vd h.1.all, ← h2]⟩
  | .comment s, h => by
    simp only [PageBlock.tmpl, TmplBlock.out, PageBlock.lines]
    exact ⟨_, rfl, by simp [chunkLines]⟩
end

end
end

section
variable {P X W : Type}

/-- The value is printed as `s`, and its truth value is `t`, without side effects. -/
def PrintedTruth (ops : PyOps P X W) (v : Val P) (t : Bool) (s : Str) : Prop :=
  (v = .str s ∧ t = !s.isEmpty) ∨ ∃ p, v = .py p ∧ (∀ m, ops.str v m = .ret s m) ∧ ∀ m, ops.truth p m = .ret t m

/-- Data that are only printed. -/
def printedData (ops : PyOps P X W) (fuel : Nat) : PyData ops fuel where
  rep v d := ∃ t s, d = .atom t s ∧ PrintedTruth ops v t s
  pending _ _ _ := False
  string s := ⟨_, _, rfl, .inl ⟨rfl, rfl⟩⟩
  truth := by
    rintro v d ⟨t, s, rfl, h⟩
    rcases h with ⟨rfl, rfl⟩ | ⟨p, rfl, h1, h2⟩
    · rfl
    · exact h2
  text := by
    rintro v t s ⟨t', s', e, h⟩
    cases e
    rcases h with ⟨rfl, rfl⟩ | ⟨p, rfl, h1, h2⟩
    · exact .inl rfl
    · exact .inr ⟨by simp, by simp, h1⟩
  field := by
    rintro v d n d' ⟨t, s, rfl, h⟩ hf
    cases hf
  iter := by
    rintro v ds ⟨t, s, e, h⟩
    cases e
  next := by
    rintro w it l h
    cases h

end
end Verif
