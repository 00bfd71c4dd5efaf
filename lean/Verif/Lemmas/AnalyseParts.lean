import Verif.Lemmas.Ctx
import Verif.Lemmas.Keeps

/-! Analysis of targets, attributes and imports. -/

set_option linter.unusedSectionVars false

namespace Verif
open Py

section
variable {P I : Type}

theorem newSlot_judge (c : Ctx) (sym : Str) : Judge True (fun r => c.Step r.2 ∧ Adds c r.2 [sym] ∧
    c.next ≤ r.1.id ∧ r.1.id < r.2.next) (newSlot c sym : Except (AErr I) (SlotInfo × Ctx)) :=
  .of_post (Ctx.newSlot_post c sym) (Ctx.newSlot_err c sym)

theorem declare_judge (c : Ctx) (sym : Str) : Judge True (fun r => c.Step r.2 ∧ Adds c r.2 [sym] ∧
    c.next ≤ r.1.id ∧ r.1.id < r.2.next) (declare c sym : Except (AErr I) (SlotInfo × Ctx)) :=
  .of_post (Ctx.declare_post c sym) (Ctx.declare_err c sym)

theorem writeSlot_judge (c : Ctx) (sym : Str) (N : Prop) : Judge True
    (fun r => c.Step r.2 ∧ Adds c r.2 [sym] ∧ c.W N r.2 (some r.1.id))
    (writeSlot c sym : Except (AErr I) (SlotInfo × Ctx)) := by
  have hd : Judge True (fun r => c.Step r.2 ∧ Adds c r.2 [sym] ∧ c.W N r.2 (some r.1.id))
      (declare c sym : Except (AErr I) (SlotInfo × Ctx)) :=
    (declare_judge c sym).imp (fun r h => ⟨h.1, h.2.1, .inr ⟨_, rfl, .inr h.2.2⟩⟩)
  unfold writeSlot
  cases hg : c.get sym with
  | none => exact hd
  | some s =>
    simp only
    split
    · rename_i hdep
      refine .pure trivial ⟨.refl c, ?_, .inr ⟨_, rfl, .inl ⟨_, lookupBind_mem hg, rfl, hdep⟩⟩⟩
      intro x
      have := (lookupBind_isSome c.binds sym).1 (by unfold Ctx.get at hg; rw [hg]; rfl)
      simp only [List.mem_singleton]
      exact ⟨.inl, fun h => h.elim id (fun h => h ▸ this)⟩
    · exact hd

theorem readSlot_judge {S : List Str} {c : Ctx} (hS : SameNames S c.binds) {q : Option Slot → Prop}
    (hq : Found q) (read : Bool) (sym : Str) :
    Judge (read = true → sym ∈ S) (fun o => read = true → q o)
      (readSlot c read sym : Except (AErr I) (Option Slot)) := by
  unfold readSlot
  cases read with
  | true =>
    exact ((resolve_judge hS sym _ hq).imp (fun o h _ => h)).iff ⟨fun h _ => h, fun h => h rfl⟩
  | false => exact .pure nofun nofun

section
variable {q : Option Slot → Prop} (hq : Found q) {N : Prop}
include hq

mutual
theorem analyseTarget_judge : ∀ (t : Target) (c : Ctx) (S : List Str), SameNames S c.binds →
    Judge (t.scoped S) (fun r => c.Step r.2 ∧ Adds c r.2 t.defines ∧ r.1.writes (c.W N r.2) ∧
      r.1.reads q) (analyseTarget t c : Except (AErr I) (Target × Ctx))
  | .var name read _ _, c, S, hS => by
    simp only [analyseTarget, Target.scoped, Target.defines]
    refine (readSlot_judge hS hq _ _).map (fun o ho => (writeSlot_judge c _ N).map ?_)
    rintro ⟨w, c1⟩ ⟨h1, h2, h3⟩
    refine .pure trivial ⟨h1, h2, ?_, ?_⟩
    · simp only [Target.writes]; exact h3
    · simp only [Target.reads]; exact ho
  | .many ts, c, S, hS => by
    simp only [analyseTarget, Target.scoped, Target.defines]
    refine (analyseTargets_judge ts c S hS).map ?_
    rintro ⟨ts', c1⟩ ⟨h1, h2, h3, h4⟩
    refine .pure trivial ⟨h1, h2, ?_, ?_⟩
    · simp only [Target.writes]; exact h3
    · simp only [Target.reads]; exact h4
theorem analyseTargets_judge : ∀ (ts : List Target) (c : Ctx) (S : List Str), SameNames S c.binds →
    Judge (Target.scopedAll S ts) (fun r => c.Step r.2 ∧ Adds c r.2 (Target.definesAll ts) ∧
      Target.writesAll (c.W N r.2) r.1 ∧ Target.readsAll q r.1)
      (analyseTargets ts c : Except (AErr I) (List Target × Ctx))
  | [], c, S, hS => by
    simp only [analyseTargets, Target.scopedAll, Target.definesAll]
    refine .pure trivial ⟨.refl c, .nil c, ?_, ?_⟩
    · simp only [Target.writesAll]
    · simp only [Target.readsAll]
  | t :: ts, c, S, hS => by
    simp only [analyseTargets, Target.scopedAll, Target.definesAll]
    refine (analyseTarget_judge t c S hS).bind ?_
    rintro ⟨t', c1⟩ ⟨h1, h2, h3, h4⟩
    refine (analyseTargets_judge ts c1 _ (h2.same hS)).map ?_
    rintro ⟨ts', c2⟩ ⟨k1, k2, k3, k4⟩
    refine .pure trivial ⟨h1.trans k1, h2.trans k2, ?_, ?_⟩
    · simp only [Target.writesAll]
      exact ⟨Target.writes_mono (fun o => .right k1.next) _ h3,
        Target.writesAll_mono (fun o => .left h1 k1.next) _ k3⟩
    · simp only [Target.readsAll]; exact ⟨h4, k4⟩
end

end

/-- The slots of attributes are new. -/
def AttrSlots (c c' : Ctx) (a : AttrDef) : Prop :=
  ∃ sl, a.slot = some sl ∧ c.next ≤ sl ∧ sl < c'.next

theorem declareAttrs_judge {q : Option Slot → Prop} (as : List AttrDef)
    (hd : ∀ a ∈ as, Expr.readsOpt q a.default) (c : Ctx) : Judge True
    (fun r => c.Step r.2 ∧ Adds c r.2 (as.map (fun a => '$' :: a.name)) ∧
      (∀ a ∈ r.1, AttrSlots c r.2 a ∧ Expr.readsOpt q a.default) ∧ r.1.length = as.length)
    (declareAttrs as c : Except (AErr I) (List AttrDef × Ctx)) := by
  induction as generalizing c with
  | nil => exact .pure trivial ⟨.refl c, .nil c, by simp, rfl⟩
  | cons a as ih =>
    simp only [declareAttrs]
    refine (declare_judge c _).map ?_
    rintro ⟨s, c1⟩ ⟨h1, h2, h3, h4⟩
    refine (ih (fun b hb => hd b (by simp [hb])) c1).map ?_
    rintro ⟨as', c2⟩ ⟨k1, k2, k3, k4⟩
    refine .pure trivial ⟨h1.trans k1, h2.trans k2, ?_, by simpa using k4⟩
    intro b hb
    rcases List.mem_cons.1 hb with rfl | hb
    · exact ⟨⟨_, rfl, h3, Nat.lt_of_lt_of_le h4 k1.next⟩, hd a (by simp)⟩
    · obtain ⟨⟨sl, e, f, g⟩, r⟩ := k3 b hb
      exact ⟨⟨sl, e, Nat.le_trans h1.next f, g⟩, r⟩

/-! ### Imports -/

theorem valueSlots_judge (l : List (Str × Val P)) (c : Ctx) : Judge True
    (fun r => c.Step r.2 ∧ Adds c r.2 (l.map Prod.fst) ∧
      (∀ x ∈ r.1, c.next ≤ x.2.1 ∧ x.2.1 < r.2.next) ∧ r.1.map (fun x => (x.1, x.2.2)) = l)
    (valueSlots l c : Except (AErr I) _) := by
  induction l generalizing c with
  | nil => exact .pure trivial ⟨.refl c, .nil c, by simp, rfl⟩
  | cons a l ih =>
    obtain ⟨sym, v⟩ := a
    simp only [valueSlots]
    refine (newSlot_judge c _).map ?_
    rintro ⟨s, c1⟩ ⟨h1, h2, h3, h4⟩
    refine (ih c1).map ?_
    rintro ⟨l', c2⟩ ⟨k1, k2, k3, k4⟩
    refine .pure trivial ⟨h1.trans k1, h2.trans k2, ?_, by simp [k4]⟩
    intro b hb
    rcases List.mem_cons.1 hb with rfl | hb
    · exact ⟨h3, Nat.lt_of_lt_of_le h4 k1.next⟩
    · exact ⟨Nat.le_trans h1.next (k3 b hb).1, (k3 b hb).2⟩

/-- Public symbols do not start with an underscore. -/
def isPublic (sym : Str) : Bool := decide (sym[1]? ≠ some '_')

theorem publicSymbols_judge (st : StateId) (l : List (Str × Val P)) : Judge True
    (fun r => r = (l.filter (fun x => isPublic x.1)).map (fun x => (x.1, importValue x.1 st x.2)))
    (publicSymbols st l : Except (AErr I) _) := by
  induction l with
  | nil => exact .pure trivial rfl
  | cons a l ih =>
    obtain ⟨sym, v⟩ := a
    simp only [publicSymbols]
    cases hc : (sym[1]? : Option Char) with
    | none => exact .error (fun h => h.elim)
    | some ch =>
      refine ih.map ?_
      rintro r rfl
      refine .pure trivial ?_
      by_cases hu : ch = '_' <;> simp [isPublic, hc, hu]

theorem loadModule_judge (src : Source P I) (path : Option Str) : Judge True
    (fun m => src.modules path = .ok m) (loadModule src path : Except (AErr I) _) := by
  unfold loadModule
  cases src.modules path with
  | ok m => exact .pure trivial rfl
  | error x => exact .error (fun h => h.elim)

theorem analyseImport_judge (src : Source P I) (path : Option Str) (i : ImportItem P) (c : Ctx)
    (N : Prop) : Judge True
    (fun r => c.Step r.2 ∧ Adds c r.2 (i.defines src path) ∧ r.1.writes (c.W N r.2))
    (analyseImport src path i c : Except (AErr I) _) := by
  cases i with
  | wild old =>
    simp only [analyseImport]
    refine (loadModule_judge src path).map ?_
    rintro ⟨symbols, st⟩ hm
    refine (publicSymbols_judge st symbols).map ?_
    rintro pub rfl
    refine (valueSlots_judge _ c).map ?_
    rintro ⟨l, c1⟩ ⟨h1, h2, h3, h4⟩
    refine .pure trivial ⟨h1, ?_, ?_⟩
    · have : (ImportItem.wild old).defines src path =
          ((symbols.filter (fun x => isPublic x.1)).map (fun x => (x.1, importValue x.1 st x.2))).map
            Prod.fst := by
        simp only [ImportItem.defines, wildNames, hm, List.map_map, List.filter_map]
        rfl
      rw [this]
      exact h2
    · intro o ho
      simp only [wildSlots, List.map_map, List.mem_map] at ho
      obtain ⟨x, hx, rfl⟩ := ho
      exact .inr ⟨_, rfl, .inr (h3 x hx)⟩
  | name sym ren old =>
    simp only [analyseImport]
    split
    · exact .error (fun h => h.elim)
    · refine (loadModule_judge src path).map ?_
      rintro ⟨symbols, st⟩ hm
      simp only
      cases Dict.get? symbols sym with
      | none => exact .error (fun h => h.elim)
      | some v =>
        refine (newSlot_judge c _).map ?_
        rintro ⟨s, c1⟩ ⟨h1, h2, h3⟩
        refine .pure trivial ⟨h1, ?_, .inr ⟨_, rfl, .inr h3⟩⟩
        cases ren <;> exact h2
  | cntx sym ren old =>
    simp only [analyseImport]
    cases Dict.get? src.context sym with
    | none => exact .error (fun h => h.elim)
    | some v =>
      refine (newSlot_judge c _).map ?_
      rintro ⟨s, c1⟩ ⟨h1, h2, h3⟩
      refine .pure trivial ⟨h1, ?_, .inr ⟨_, rfl, .inr h3⟩⟩
      cases ren <;> exact h2

theorem analyseImports_judge (src : Source P I) (path : Option Str) (is : List (ImportItem P))
    (c : Ctx) (N : Prop) : Judge True
    (fun r => c.Step r.2 ∧ Adds c r.2 (is.flatMap (fun i => i.defines src path)) ∧
      ∀ i ∈ r.1, i.writes (c.W N r.2)) (analyseImports src path is c : Except (AErr I) _) := by
  induction is generalizing c with
  | nil => exact .pure trivial ⟨.refl c, .nil c, by simp⟩
  | cons i is ih =>
    simp only [analyseImports]
    refine (analyseImport_judge src path i c N).map ?_
    rintro ⟨i', c1⟩ ⟨h1, h2, h3⟩
    refine (ih c1).map ?_
    rintro ⟨is', c2⟩ ⟨k1, k2, k3⟩
    refine .pure trivial ⟨h1.trans k1, h2.trans k2, ?_⟩
    intro j hj
    rcases List.mem_cons.1 hj with rfl | hj
    · exact ImportItem.writes_mono (fun o => .right k1.next) _ h3
    · exact ImportItem.writes_mono (fun o => .left h1 k1.next) _ (k3 j hj)

end
end Verif
