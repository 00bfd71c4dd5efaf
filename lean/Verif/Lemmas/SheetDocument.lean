import Verif.Lemmas.Sheets
import Verif.Lemmas.TemplateDocument

/-! Templates with modifiers from the script to the document. -/

namespace Verif
open Py Spec Ctx

section
variable {P X W I : Type} {E : Env P X W} {D : PyData E.ops E.fuel} {σ : StateId} {tagOf : P → TagObj} {strOf : Val P → Str}
variable {ext : Nat → Except RenderErr Str → List AttrVal → List (Str × AttrVal) → Except RenderErr Str}
variable {void : Str → Option Bool} {src : Source P I} {names : Str → Option Char}

/-- A template with modifiers, from the script to the text. -/
theorem sheet_document {Mk : Marks} {U : Uni} [MarksApart Mk U] (hE : EscapesHtml E) {first : Slot} {globals : Dict Str (Val P)}
    (hv : ∀ x ∈ globals, validSymbol x.1 = true) (hk : (Dict.keys globals).Nodup) {Mm : Machine P W}
    (hi : (Mm.states σ).indentation = ['\n'])
    (ht : ∀ n v, void n = some v → ∃ p, Dict.get? globals ('%' :: n) = some (.py p) ∧ E.ops.isTag p = true ∧ tagOf p = .markup n v .html)
    {Γ : Str → Prop} {ρ : Vars} (hx : ∀ y, Γ y → ∃ v d, Dict.get? globals ('$' :: y) = some v ∧ ρ y = some d ∧ D.rep v d)
    {T : Sheet} (hT : T.Ok Mk void Γ) (hok : ItemsOk T.items) (hne : T.items ≠ []) {xs : List Span}
    (ho : T.out (fun n => (void n).getD false) ρ = some xs) :
    ∃ ss doc root syms M' node, loadScript Mk U names (itemText T.items) = .ok ss ∧ analyseDocument src first globals ss = .ok doc ∧
      translDocument E σ doc Mm = (.ok (root, syms), M') ∧ Unfolds tagOf strOf M'.mem.nodes root node ∧
      renderNode ext node = .ok (withoutFirst (spansText [] xs)) := by
  obtain ⟨ins, c1, M1, h1, h2, h3⟩ := globals_bound (I := I) (X := X) (σ := σ) first globals hv hk Mm
  have hg : c1.Good (Setting.plain P W) := valueSlots_good (I := I) globals { next := first } (.plain (by simp) (by simp)) (by simp) hk _ h1
  have hS : Situ E D σ tagOf void c1.binds Γ ρ M1.store := by
    refine ⟨fun y hy => ?_, fun n v hn => ?_⟩
    · obtain ⟨v, d, g1, g2, g3⟩ := hx y hy
      obtain ⟨sl, k1, k2⟩ := h3 _ _ g1
      exact ⟨sl, v, d, k1, k2, g2, g3⟩
    · obtain ⟨p, g1, g2, g3⟩ := ht n v hn
      obtain ⟨sl, k1, k2⟩ := h3 _ _ g1
      exact ⟨sl, k1, fun _ => ⟨p, k2, g2, g3⟩⟩
  have hb : Bound (Setting.plain P W) Γ void c1.binds := by
    refine ⟨?_, fun _ h => h.elim⟩
    rintro sym ((⟨y, hy, rfl⟩ | ⟨n, v, hn, rfl⟩) | ⟨n, h, hn, -⟩ | ⟨b, hb, -⟩)
    · obtain ⟨sl, _, _, h, _⟩ := hS.vars y hy
      exact ⟨sl, h⟩
    · obtain ⟨sl, h, _⟩ := hS.tags n v hn
      exact ⟨sl, h⟩
    · cases hn
    · cases hb
  have hind : M1.store.ind σ = ['\n'] := (setSlots_indent σ _ _ _ h2).trans hi
  obtain ⟨ss, ss', c2, b1, b5, -, b3⟩ := Sheet.made (D := D) (σ := σ) (tagOf := tagOf) (strOf := strOf) (ext := ext) (src := src) (names := names)
    (L := .plain P W) ⟨fun _ _ _ _ => trivial, fun _ h => h.elim⟩ rfl (MarksApart.high (U := U)) hE T Γ hT c1 hg hb
  have b7 := b3 ρ M1.store xs ⟨hS, nofun, nofun, trivial⟩ (by rw [hind]; rfl) ho
  obtain ⟨root, syms, M', node, es, e1, ⟨-, b8⟩, e3, e4⟩ := document_shows (X := X)
    (doc := { slotsIn := ins.map Prod.snd, children := ss',
              slotsOut := (Dict.update [] (c2.binds.drop c1.binds.length)).map (fun p => (p.1, p.2.id)) }) h2 rfl hind b7
  refine ⟨ss, _, root, syms, M', node, C77_script Mk U P names hne hok (b1 0), ?_, e1, e3, ?_⟩
  · unfold analyseDocument
    rw [h1]
    show (analyseAll src ss c1 >>= _) = _
    rw [b5]; rfl
  · rw [e4, b8.shown [] (by simp), dropLine_without]

end
end Verif
