import Verif.Lemmas.PageEvents
import Verif.Lemmas.TemplateDocument
import Verif.Spec.TemplateEvents

/-! Documents of templates as a reader sees them. -/

namespace Verif
open Py Spec

section
variable {M : Marks} {void : Str → Option Bool}

theorem chunkLines_append (cs cs' : List Chunk) : chunkLines (cs ++ cs') = chunkLines cs ++ chunkLines cs' := by
  simp [chunkLines]

theorem sees_opening {cs : List Chunk} {ev : List Event} (h : SeesAll (chunkLines cs) ev) : SeesAll (chunkLines (opening cs)) ev := by
  unfold opening
  split
  · next x m cs =>
    have e : chunkLines (.gap true m :: cs) = [] :: (List.replicate m [] ++ chunkLines cs) := by
      simp [chunkLines, Chunk.lines, List.replicate_succ]
    have e' : chunkLines (.gap x m :: cs) = (if x then [[]] else []) ++ (List.replicate m [] ++ chunkLines cs) := by
      cases x <;> simp [chunkLines, Chunk.lines, List.replicate_succ]
    rw [e' ] at h
    rw [e]
    cases x with
    | true => exact h
    | false => exact SeesAll.cons (ev := []) (.nil _) h
  · exact h

theorem sees_collect {ds : List Data} {f : Data → Option (List Chunk)} {g : Data → List Event}
    (h : ∀ d ∈ ds, ∀ cs, f d = some cs → SeesAll (chunkLines cs) (g d)) {cs : List Chunk} (hc : collect (ds.map f) = some cs) :
    SeesAll (chunkLines cs) (ds.flatMap g) := by
  induction ds generalizing cs with
  | nil =>
    simp only [List.map_nil, collect, Option.some.injEq] at hc
    subst hc
    exact .nil
  | cons d ds ih =>
    cases hf : f d with
    | none => simp [hf, collect] at hc
    | some a =>
      simp only [List.map_cons, hf, collect, Option.map_eq_some_iff] at hc
      obtain ⟨r, h1, rfl⟩ := hc
      rw [chunkLines_append, List.flatMap_cons]
      exact (h d (by simp) a hf).append (ih (fun x hx => h x (by simp [hx])) h1)

/-- Components whose markup is read as the given events. -/
def LibReads (lib : Lib) (le : LibEvents) (ls : LibSafe) : Prop :=
  ∀ n vs cb cs ev, ls n vs → lib n vs cb = some cs → SeesAll (chunkLines cb) ev → SeesAll (chunkLines cs) (le n vs ev)

variable {sigs : Sigs} {bv : Option Str} {lib : Lib} {le : LibEvents} {ls : LibSafe} (hl : LibReads lib le ls)

include hl

theorem call_reads {n : Str} {vs : Option (List (Str × Data))} {cb cs : List Chunk} {ev : List Event} (hs : callSafe (ls n) vs)
    (ho : vs.bind (fun vs => lib n vs cb) = some cs) (hb : SeesAll (chunkLines cb) ev) : SeesAll (chunkLines cs) (callEvents (le n) vs ev) := by
  obtain ⟨v, rfl, h2⟩ := Option.bind_eq_some_iff.1 ho
  exact hl n v cb cs ev (hs v rfl) h2 hb

set_option linter.unusedSectionVars false in
mutual
theorem tmpl_reads : ∀ (T : Tmpl) (Γ : Str → Prop) (β : Bool) (ρ : Vars) (cb cs : List Chunk) (ev : List Event), T.Ok M void sigs bv Γ β → T.Safe ls ρ →
    T.out (fun n => (void n).getD false) lib ρ cb = some cs → SeesAll (chunkLines cb) ev →
    SeesAll (chunkLines cs) (T.events (fun n => (void n).getD false) le ρ ev)
  | .nil, _, β, _, cb, cs, ev, _, _, ho, hb => by
    simp only [Tmpl.out, Option.some.injEq] at ho
    subst ho
    simp only [Tmpl.events]; exact .nil
  | .cons m b rest, Γ, β, ρ, cb, cs, ev, h, hs, ho, hb => by
    simp only [Tmpl.Ok] at h
    obtain ⟨β', h1', β'', h2'⟩ : ∃ β', b.Ok M void sigs bv Γ β' ∧ ∃ β'', rest.Ok M void sigs bv (b.scope Γ) β'' :=
      h.elim (fun h => ⟨_, h.1, _, h.2⟩) (fun h => ⟨_, h.1, _, h.2⟩)
    simp only [Tmpl.Safe] at hs
    simp only [Tmpl.out, Option.bind_eq_some_iff, Option.map_eq_some_iff] at ho
    obtain ⟨a, h1, r, h2, rfl⟩ := ho
    simp only [Tmpl.events]
    rw [chunkLines_append, chunkLines_append, chunkLines_gap]
    exact SeesAll.append (ev := []) (.blank m)
      ((tmplBlock_reads b Γ _ ρ cb a ev h1' hs.1 h1 hb).append (tmpl_reads rest _ _ _ cb r ev h2' hs.2 h2 hb))
theorem tmplBlock_reads : ∀ (T : TmplBlock) (Γ : Str → Prop) (β : Bool) (ρ : Vars) (cb cs : List Chunk) (ev : List Event), T.Ok M void sigs bv Γ β → T.Safe ls ρ →
    T.out (fun n => (void n).getD false) lib ρ cb = some cs → SeesAll (chunkLines cb) ev →
    SeesAll (chunkLines cs) (T.events (fun n => (void n).getD false) le ρ ev)
  | .text c, _, β, ρ, cb, cs, ev, _, hs, ho, hb => by
    simp only [TmplBlock.Safe] at hs
    simp only [TmplBlock.out, Option.ite_none_right_eq_some, Option.some.injEq] at ho
    obtain ⟨-, rfl⟩ := ho
    simp only [TmplBlock.events]
    exact .one (content_reads hs)
  | .inline es c, _, β, ρ, cb, cs, ev, h, hs, ho, hb => by
    simp only [TmplBlock.Ok] at h
    simp only [TmplBlock.Safe] at hs
    simp only [TmplBlock.out, Option.ite_none_right_eq_some, Option.some.injEq] at ho
    obtain ⟨-, rfl⟩ := ho
    simp only [TmplBlock.events]
    exact .one (Lex.append (starts_read h.1.all) (Lex.append (content_reads hs) (ends_read h.1.all)))
  | .empty es, _, β, ρ, cb, cs, ev, h, _, ho, hb => by
    simp only [TmplBlock.Ok] at h
    simp only [TmplBlock.out, Option.ite_none_right_eq_some, Option.some.injEq] at ho
    obtain ⟨-, rfl⟩ := ho
    simp only [TmplBlock.events]
    exact .one (empties_read _ h.all)
  | .nested es inc body, Γ, β, ρ, cb, cs, ev, h, hs, ho, hb => by
    simp only [TmplBlock.Ok] at h
    simp only [TmplBlock.Safe] at hs
    simp only [TmplBlock.out, Option.ite_none_right_eq_some, Option.map_eq_some_iff] at ho
    obtain ⟨-, bs, hb', rfl⟩ := ho
    have ih := tmpl_reads body Γ _ ρ cb bs ev h.2.2.2.2 hs hb' hb
    have e : ∀ ls, chunkLines [.block ls] = ls := by simp [chunkLines, Chunk.lines]
    simp only [TmplBlock.events, e]
    generalize chunkLines bs = ls at ih
    generalize body.events (fun n => (void n).getD false) le ρ ev = ev at ih
    cases ih with
    | nil =>
      simp only [aroundLines, List.nil_append]
      rw [← emptyEvents_full (vd := fun n => (void n).getD false) h.1.full]
      exact .one (empties_read _ h.1.all)
    | cons h1 h2 =>
      exact .cons (starts_read h.1.all) (SeesAll.append ((SeesAll.cons h1 h2).shift h.2.1) (.one (ends_read h.1.all)))
  | .comment s, _, β, ρ, cb, cs, ev, _, _, ho, hb => by
    simp only [TmplBlock.out, Option.some.injEq] at ho
    subst ho
    simp only [TmplBlock.events]; exact .nil
  | .cond x inc body more, Γ, β, ρ, cb, cs, ev, h, hs, ho, hb => by
    simp only [TmplBlock.Ok] at h
    simp only [TmplBlock.Safe] at hs
    simp only [TmplBlock.out, Option.bind_eq_some_iff, Option.map_eq_some_iff] at ho
    obtain ⟨t, ht, a, ha, rfl⟩ := ho
    simp only [TmplBlock.events, whenEvents, ht]
    refine sees_opening ?_
    cases t with
    | true => simpa using tmpl_reads body Γ _ ρ cb a ev h.2.2.2.2.1 (hs.1 ht) (by simpa using ha) hb
    | false => simpa using tmplElse_reads more Γ _ ρ cb a ev h.2.2.2.2.2 (hs.2 ht) (by simpa using ha) hb
  | .loop v x inc body, Γ, β, ρ, cb, cs, ev, h, hs, ho, hb => by
    simp only [TmplBlock.Ok] at h
    simp only [TmplBlock.Safe] at hs
    simp only [TmplBlock.out, Option.map_eq_some_iff] at ho
    obtain ⟨a, ha, rfl⟩ := ho
    simp only [TmplBlock.events]
    refine sees_opening ?_
    cases hv : ρ.value x with
    | none => simp [hv, each] at ha
    | some d =>
      cases d with
      | list ds =>
        simp only [hv, each] at ha
        simp only [eachEvents]
        exact sees_collect (fun d hd cs hc => tmpl_reads body _ _ _ cb cs ev h.2.2.2.2.2.2.2 (hs ds hv d hd) hc hb) ha
      | _ => simp [hv, each] at ha
  | .set v g, _, β, ρ, cb, cs, ev, _, _, ho, hb => by
    simp only [TmplBlock.out, Option.ite_none_right_eq_some, Option.some.injEq] at ho
    obtain ⟨-, rfl⟩ := ho
    simp only [TmplBlock.events]; exact .nil
  | .call n args, _, _, ρ, cb, cs, ev, _, hs, ho, _ => by
    simp only [TmplBlock.Safe] at hs
    simp only [TmplBlock.out] at ho
    simp only [TmplBlock.events]
    exact call_reads hl hs ho .nil
  | .callInline n args c, _, _, ρ, cb, cs, ev, _, hs, ho, _ => by
    simp only [TmplBlock.Safe] at hs
    simp only [TmplBlock.out, Option.ite_none_right_eq_some] at ho
    simp only [TmplBlock.events]
    exact call_reads hl hs.1 ho.2 (.one (content_reads hs.2))
  | .callNested n args inc body, Γ, β, ρ, cb, cs, ev, h, hs, ho, hb => by
    simp only [TmplBlock.Ok] at h
    simp only [TmplBlock.Safe] at hs
    simp only [TmplBlock.out] at ho
    simp only [TmplBlock.events]
    obtain ⟨a, h1, h2⟩ := Option.bind_eq_some_iff.1 ho
    exact call_reads hl hs.1 h2 (sees_opening (tmpl_reads body Γ β ρ cb a ev h.2.2.2.2 hs.2 h1 hb))
  | .embed b, _, _, ρ, cb, cs, ev, _, _, ho, hb => by
    simp only [TmplBlock.out, Option.some.injEq] at ho
    subst ho
    simp only [TmplBlock.events]
    exact hb
theorem tmplElse_reads : ∀ (T : TmplElse) (Γ : Str → Prop) (β : Bool) (ρ : Vars) (cb cs : List Chunk) (ev : List Event), T.Ok M void sigs bv Γ β → T.Safe ls ρ →
    T.out (fun n => (void n).getD false) lib ρ cb = some cs → SeesAll (chunkLines cb) ev →
    SeesAll (chunkLines cs) (T.events (fun n => (void n).getD false) le ρ ev)
  | .none, _, β, _, cb, cs, ev, _, _, ho, hb => by
    simp only [TmplElse.out, Option.some.injEq] at ho
    subst ho
    simp only [TmplElse.events]; exact .nil
  | .els m inc body, Γ, β, ρ, cb, cs, ev, h, hs, ho, hb => by
    simp only [TmplElse.Ok] at h
    simp only [TmplElse.Safe] at hs
    simp only [TmplElse.out] at ho
    simp only [TmplElse.events]
    exact tmpl_reads body Γ _ ρ cb cs ev h.2.2.2 hs ho hb
  | .elif m x inc body more, Γ, β, ρ, cb, cs, ev, h, hs, ho, hb => by
    simp only [TmplElse.Ok] at h
    simp only [TmplElse.Safe] at hs
    simp only [TmplElse.out, Option.bind_eq_some_iff] at ho
    obtain ⟨t, ht, ha⟩ := ho
    simp only [TmplElse.events, whenEvents, ht]
    cases t with
    | true => simpa using tmpl_reads body Γ _ ρ cb cs ev h.2.2.2.2.1 (hs.1 ht) (by simpa using ha) hb
    | false => simpa using tmplElse_reads more Γ _ ρ cb cs ev h.2.2.2.2.2 (hs.2 ht) (by simpa using ha) hb
end

end
end Verif
