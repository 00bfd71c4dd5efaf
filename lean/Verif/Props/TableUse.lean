import Verif.Props.Table
import Verif.Model.Analyse

/-! The context of the name analysis, which the model keeps as a list of bindings, is implemented by the
symbol table (C69). -/

namespace Verif
open Spec

/-- C69. The table of a context answers as the model of the context does, and the relation is kept by
every operation of the analysis: push, pushnew, the end of a namespace and the end of a branch. -/
theorem C69_context (c : Ctx) (md : MultiDict Str SlotInfo) (h : Rep md c.binds) :
    (∀ x, md.get x = .ok (c.get x)) ∧
    (∀ x s, Rep (md.push x s) (c.push x s).binds) ∧
    (∀ ps, Rep (md.pushnew ps) (c.pushnew ps).binds) ∧
    (∀ (c' : Ctx) (md' : MultiDict Str SlotInfo), Rep md' c'.binds →
      c.binds.length ≤ c'.binds.length →
      ∃ md'', md'.reset md.position = .ok md'' ∧ Rep md'' (c.leave c').binds ∧
        Rep (md''.pushnew (md'.asdict md.position)) (c.mergeBranch c').binds) := by
  have get : ∀ (c : Ctx) (x : Str), latest c.binds x = c.get x := by
    intro c x
    unfold Ctx.get
    generalize c.binds = bs
    induction bs with
    | nil => rfl
    | cons b bs ih => simp only [latest, lookupBind, ih]; cases lookupBind bs x <;> rfl
  have pushnew : ∀ (ps : List (Str × SlotInfo)) (c : Ctx) (md : MultiDict Str SlotInfo),
      Rep md c.binds → Rep (md.pushnew ps) (c.pushnew ps).binds := by
    intro ps
    induction ps with
    | nil => intro c md h; exact h
    | cons p ps ih =>
      intro c md h
      have e : md.contains p.1 = (c.get p.1).isSome := by
        rw [Bool.eq_iff_iff, rep_contains h, ← get, latest_isSome_iff]
      simp only [MultiDict.pushnew, Ctx.pushnew, e]
      split
      · exact ih c md h
      · exact ih _ _ (rep_push h _ _)
  refine ⟨fun x => by rw [rep_get h, get], fun x s => rep_push h x s, fun ps => pushnew ps c md h, ?_⟩
  intro c' md' h' hl
  have hpos : md.position = c.binds.length := by
    rw [← h.1]; simp [MultiDict.position, binds]
  rcases rep_reset h' md.position with ⟨h5, _⟩ | ⟨md'', _, h6, h7⟩
  · omega
  · rw [hpos] at h7
    refine ⟨md'', h6, h7, ?_⟩
    have e : md'.asdict md.position = Dict.update [] (c'.binds.drop c.binds.length) := by
      rw [← h'.1, hpos]
      simp only [MultiDict.asdict, binds, List.map_drop]
    rw [e]
    exact pushnew _ { c' with binds := c'.binds.take c.binds.length } md'' h7

/-- The relation holds of the empty context. -/
example : Rep (MultiDict.empty : MultiDict Str SlotInfo) ({} : Ctx).binds := rep_empty

example : (({} : Ctx).push (s!!"$x") ⟨0, 0⟩ |>.push (s!!"$x") ⟨1, 0⟩ |>.pushnew [(s!!"$x", ⟨2, 0⟩),
    (s!!"$y", ⟨3, 0⟩)]).binds = [(s!!"$x", ⟨0, 0⟩), (s!!"$x", ⟨1, 0⟩), (s!!"$y", ⟨3, 0⟩)] := by decide

end Verif
