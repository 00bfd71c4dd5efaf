import Verif.Lemmas.Unslotted
import Verif.Spec.Reslot

/-! Scripts as created by the parser, with other slots: the same scripts. -/

set_option linter.unusedSectionVars false

namespace Verif
open Py Spec

section
variable {P I : Type} {M : Marks} {U : Uni} (f : Slot → Slot)

mutual
theorem Expr.Made.reslot : ∀ {e : Expr}, e.Made → e.reslot f = e
  | .root _ e, h => by simp only [Expr.Made, Expr.reslot] at *; rw [h.reslot]
  | .tagUse _ _, h => by simp only [Expr.Made, Expr.reslot] at *; rw [h.1]; rfl
  | .varUse _ _, h => by simp only [Expr.Made, Expr.reslot] at *; rw [h.1]; rfl
  | .factor a ts _, h => by simp only [Expr.Made, Expr.reslot] at *; rw [h.1.reslot, Tail.MadeAll.reslot h.2]
  | .chain _ a _ es, h => by simp only [Expr.Made, Expr.reslot] at *; rw [h.1.reslot, Expr.MadeAll.reslot h.2.1]
  | .concat es, h => by simp only [Expr.Made, Expr.reslot] at *; rw [Expr.MadeAll.reslot h]
  | .bits _ a es, h => by simp only [Expr.Made, Expr.reslot] at *; rw [h.1.reslot, Expr.MadeAll.reslot h.2]
  | .pipeline a es, h => by simp only [Expr.Made, Expr.reslot] at *; rw [h.1.reslot, Expr.MadeAll.reslot h.2]
  | .notTest _ e, h => by simp only [Expr.Made, Expr.reslot] at *; rw [h.reslot]
  | .andTest a es, h => by simp only [Expr.Made, Expr.reslot] at *; rw [h.1.reslot, Expr.MadeAll.reslot h.2]
  | .orTest a es, h => by simp only [Expr.Made, Expr.reslot] at *; rw [h.1.reslot, Expr.MadeAll.reslot h.2]
  | .ifElse x t y, h => by
    simp only [Expr.Made, Expr.reslot] at *; rw [h.1.reslot, h.2.1.reslot, Expr.MadeOpt.reslot h.2.2]
  | .list es, h => by simp only [Expr.Made, Expr.reslot] at *; rw [Expr.MadeAll.reslot h]
  | .tuple es, h => by simp only [Expr.Made, Expr.reslot] at *; rw [Expr.MadeAll.reslot h]
  | .set es, h => by simp only [Expr.Made, Expr.reslot] at *; rw [Expr.MadeAll.reslot h]
  | .dict es, h => by simp only [Expr.Made, Expr.reslot] at *; rw [Expr.MadeAll.reslot h.1]
  | .format es, h => by simp only [Expr.Made, Expr.reslot] at *; rw [Expr.MadeAll.reslot h]
  | .static _, _ => by simp only [Expr.reslot]
  | .strLit _, _ => by simp only [Expr.reslot]
  | .number _, _ => by simp only [Expr.reslot]
  | .boolean _, _ => by simp only [Expr.reslot]
  | .noneLit, _ => by simp only [Expr.reslot]
  | .sliceNone, _ => by simp only [Expr.reslot]
theorem Expr.MadeAll.reslot : ∀ {es : List Expr}, Expr.MadeAll es → Expr.reslotAll f es = es
  | [], _ => by simp only [Expr.reslotAll]
  | e :: es, h => by simp only [Expr.MadeAll, Expr.reslotAll] at *; rw [h.1.reslot, Expr.MadeAll.reslot h.2]
theorem Expr.MadeOpt.reslot : ∀ {o : Option Expr}, Expr.MadeOpt o → Expr.reslotOpt f o = o
  | .none, _ => by simp only [Expr.reslotOpt]
  | .some e, h => by simp only [Expr.MadeOpt, Expr.reslotOpt] at *; rw [h.reslot]
theorem Tail.MadeAll.reslot : ∀ {ts : List Tail}, Tail.MadeAll ts → Tail.reslotAll f ts = ts
  | [], _ => by simp only [Tail.reslotAll]
  | t :: ts, h => by simp only [Tail.MadeAll, Tail.reslotAll] at *; rw [h.1.reslot, Tail.MadeAll.reslot h.2]
theorem Tail.Made.reslot : ∀ {t : Tail}, t.Made → t.reslot f = t
  | .call _ _, h => by simp only [Tail.Made, Tail.reslot] at *; rw [Expr.MadeAll.reslot h.1]
  | .partialCall _ _, h => by simp only [Tail.Made, Tail.reslot] at *; rw [Expr.MadeAll.reslot h.1]
  | .index _, h => by simp only [Tail.Made, Tail.reslot] at *; rw [Expr.MadeAll.reslot h.1]
  | .member _, _ => by simp only [Tail.reslot]
end

mutual
theorem Target.Made.reslot : ∀ {t : Target}, t.Made → t.reslot f = t
  | .var _ _ _ _, h => by simp only [Target.Made, Target.reslot] at *; rw [h.2.1, h.2.2]; rfl
  | .many ts, h => by simp only [Target.Made, Target.reslot] at *; rw [Target.MadeAll.reslot h.2]
theorem Target.MadeAll.reslot : ∀ {ts : List Target}, Target.MadeAll ts → Target.reslotAll f ts = ts
  | [], _ => by simp only [Target.reslotAll]
  | t :: ts, h => by simp only [Target.MadeAll, Target.reslotAll] at *; rw [h.1.reslot, Target.MadeAll.reslot h.2]
end

theorem map_fix {α : Type} {h : α → α} {l : List α} (e : ∀ x ∈ l, h x = x) : l.map h = l := by
  induction l with
  | nil => rfl
  | cons x l ih => rw [List.map_cons, e x (by simp), ih (fun y hy => e y (by simp [hy]))]

theorem Line.Made.reslot {l : Line} (h : l.Made M) : l.reslot f = l := by
  cases l <;> simp only [Line.Made, Line.reslot] at *
  · rw [Expr.MadeAll.reslot f h.1]
  · rw [Expr.MadeAll.reslot f h.1]

theorem TagExp.Made.reslot {t : TagExp} (h : t.Made U) : t.reslot f = t := by
  cases t with
  | null => simp only [TagExp.reslot]
  | tag name slot us ns =>
    simp only [TagExp.Made, TagExp.reslot] at *
    rw [h.2.1, Expr.MadeAll.reslot f h.2.2.1, map_fix (fun n hn => by rw [Expr.Made.reslot f (h.2.2.2 n hn).2])]
    rfl

theorem AttrDef.Made.reslot {a : AttrDef} (h : a.Made) : a.reslot f = a := by
  obtain ⟨n, d, s⟩ := a
  simp only [AttrDef.Made, AttrDef.reslot] at *
  rw [h.2.1, Expr.MadeOpt.reslot f h.2.2]
  rfl

theorem nested_reslot {k : LineKind} {is : List TextItem} (h : WellNested TextItem.indent TextItem.dedent (TextItem.Made M k) is) :
    ∀ i ∈ is, i.reslot f = i := by
  induction h with
  | nil => simp
  | @one a as ha _ ih =>
    intro i hi
    rcases List.mem_cons.1 hi with rfl | hi
    · cases i <;> simp only [TextItem.Made, TextItem.reslot] at *
      rw [ha.1.reslot]
    · exact ih i hi
  | sub _ _ _ ih1 ih2 =>
    intro i hi
    simp only [List.mem_cons, List.mem_append] at hi
    rcases hi with rfl | hi | rfl | hi
    · simp only [TextItem.reslot]
    · exact ih1 i hi
    · simp only [TextItem.reslot]
    · exact ih2 i hi

mutual
theorem Stmt.Made.reslot : ∀ {s : Stmt P}, s.Made M U → s.reslot f = s
  | .indent _, _ => by simp only [Stmt.reslot]
  | .dedent _, _ => by simp only [Stmt.reslot]
  | .xblock _ _ b, h => by simp only [Stmt.Made, Stmt.reslot] at *; rw [h.2.2.reslot]
  | .struct _ b, h => by
    simp only [Stmt.Made, Stmt.reslot] at *
    rw [h.2.2.reslot]
    rcases h.1 with rfl | h
    · simp only [List.map_cons, List.map_nil, TagExp.reslot]
    · rw [map_fix (fun t ht => (h.2 t ht).reslot f)]
  | .defn id name slot ba as b, h => by
    simp only [Stmt.Made, Stmt.reslot] at *
    rw [h.2.1, h.2.2.2.2.2.2.reslot, map_fix (fun a ha => (h.2.2.2.1 a ha).reslot f)]
    cases ba with
    | none => rfl
    | some a => rw [Option.map_some, ((h.2.2.1 a rfl).1).reslot]; rfl
  | .imports _ _ items, h => by
    simp only [Stmt.Made, Stmt.reslot] at *
    rw [map_fix (fun i hi => ?_)]
    have := h.2.2.2 i hi
    cases i <;> simp only [ImportItem.Made, ImportItem.reslot] at *
    · rw [this.2]; rfl
    · rw [this.2.2.2]; rfl
    · rw [this.2.2.2]; rfl
  | .tryBlock bs, h => by simp only [Stmt.Made, Stmt.reslot] at *; rw [Stmt.MadeAll.reslot h.2.2]
  | .ifBlock cs els, h => by simp only [Stmt.Made, Stmt.reslot] at *; rw [Stmt.MadeClauses.reslot h.2.1, Stmt.MadeOpt.reslot h.2.2.2]
  | .elseClause b, h => by simp only [Stmt.Made, Stmt.reslot] at *; rw [Stmt.MadeOpt.reslot h.2]
  | .whileBlock _ b els, h => by
    simp only [Stmt.Made, Stmt.reslot] at *
    rw [h.1.reslot, Stmt.MadeOpt.reslot h.2.2.1, Stmt.MadeOpt.reslot h.2.2.2.2]
  | .forBlock _ _ rest, h => by
    simp only [Stmt.Made, Stmt.reslot] at *
    rw [h.2.1.reslot, h.2.2.1.reslot, Stmt.MadeAll.reslot h.2.2.2.2]
  | .static _, _ => by simp only [Stmt.reslot]
  | .line _, h => by simp only [Stmt.Made, Stmt.reslot] at *; rw [h.reslot]
  | .text _ _, h => by
    simp only [Stmt.Made, Stmt.reslot] at *
    obtain ⟨_, k, h⟩ := h
    rw [map_fix (nested_reslot f h)]
  | .comment, _ => by simp only [Stmt.reslot]
  | .embed _, h => by simp only [Stmt.Made, Stmt.reslot] at *; rw [h.reslot]
  | .exprBlock _, h => by simp only [Stmt.Made, Stmt.reslot] at *; rw [h.reslot]
  | .assign _ _ _, h => by simp only [Stmt.Made, Stmt.reslot] at *; rw [h.1.reslot, h.2.2.reslot]
  | .body ss, h => by simp only [Stmt.Made, Stmt.reslot] at *; rw [Stmt.MadeAll.reslot h.2]
  | .pass, _ => by simp only [Stmt.reslot]
theorem Stmt.MadeAll.reslot : ∀ {ss : List (Stmt P)}, Stmt.MadeAll M U ss → Stmt.reslotAll f ss = ss
  | [], _ => by simp only [Stmt.reslotAll]
  | s :: ss, h => by simp only [Stmt.MadeAll, Stmt.reslotAll] at *; rw [h.1.reslot, Stmt.MadeAll.reslot h.2]
theorem Stmt.MadeOpt.reslot : ∀ {o : Option (Stmt P)}, Stmt.MadeOpt M U o → Stmt.reslotOpt f o = o
  | .none, _ => by simp only [Stmt.reslotOpt]
  | .some s, h => by simp only [Stmt.MadeOpt, Stmt.reslotOpt] at *; rw [h.reslot]
theorem Stmt.MadeClause.reslot : ∀ {c : Expr × Option (Stmt P)}, Stmt.MadeClause M U c → Stmt.reslotClause f c = c
  | (_, b), h => by simp only [Stmt.MadeClause, Stmt.reslotClause] at *; rw [h.1.reslot, Stmt.MadeOpt.reslot h.2.2]
theorem Stmt.MadeClauses.reslot : ∀ {cs : List (Expr × Option (Stmt P))}, Stmt.MadeClauses M U cs → Stmt.reslotClauses f cs = cs
  | [], _ => by simp only [Stmt.reslotClauses]
  | c :: cs, h => by
    simp only [Stmt.MadeClauses, Stmt.reslotClauses] at *; rw [Stmt.MadeClause.reslot h.1, Stmt.MadeClauses.reslot h.2]
end

theorem Stmt.Made.bare {s : Stmt P} (h : s.Made M U) : s.bare := ⟨fun f => h.reslot f, h.fresh⟩

section
variable {K : Stmt P → Prop} (hK : ∀ t : Stmt P, t.Made M U → K t)
include hK

mutual
theorem Stmt.Made.tailsOf : ∀ {s : Stmt P}, s.Made M U → s.tails K
  | .indent _, _ => by simp only [Stmt.tails]
  | .dedent _, _ => by simp only [Stmt.tails]
  | .xblock _ _ b, h => by simp only [Stmt.Made, Stmt.tails] at *; exact h.2.2.tailsOf
  | .struct _ b, h => by simp only [Stmt.Made, Stmt.tails] at *; exact h.2.2.tailsOf
  | .defn id name slot ba as b, h => by simp only [Stmt.Made, Stmt.tails] at *; exact h.2.2.2.2.2.2.tailsOf
  | .imports _ _ items, h => by simp only [Stmt.tails]
  | .tryBlock bs, h => by simp only [Stmt.Made, Stmt.tails] at *; exact Stmt.MadeAll.tailsOf h.2.2
  | .ifBlock cs els, h => by simp only [Stmt.Made, Stmt.tails] at *; exact ⟨Stmt.MadeClauses.tailsOf h.2.1, Stmt.MadeOpt.tailsOf h.2.2.2⟩
  | .elseClause b, h => by simp only [Stmt.Made, Stmt.tails] at *; exact Stmt.MadeOpt.tailsOf h.2
  | .whileBlock _ b els, h => by
    simp only [Stmt.Made, Stmt.tails] at *; exact ⟨Stmt.MadeOpt.tailsOf h.2.2.1, Stmt.MadeOpt.tailsOf h.2.2.2.2⟩
  | .forBlock _ _ rest, h => by simp only [Stmt.Made, Stmt.tails] at *; exact Stmt.MadeFirst.tailsOf h.2.2.2.2
  | .static _, _ => by simp only [Stmt.tails]
  | .line _, h => by simp only [Stmt.tails]
  | .text _ _, h => by simp only [Stmt.tails]
  | .comment, _ => by simp only [Stmt.tails]
  | .embed _, h => by simp only [Stmt.tails]
  | .exprBlock _, h => by simp only [Stmt.tails]
  | .assign _ _ _, h => by simp only [Stmt.tails]
  | .body ss, h => by simp only [Stmt.Made, Stmt.tails] at *; exact Stmt.MadeAll.tailsOf h.2
  | .pass, _ => by simp only [Stmt.tails]
theorem Stmt.MadeAll.tailsOf : ∀ {ss : List (Stmt P)}, Stmt.MadeAll M U ss → Stmt.tailsAll K ss
  | [], _ => by simp only [Stmt.tailsAll]
  | s :: ss, h => by simp only [Stmt.MadeAll, Stmt.tailsAll] at *; exact ⟨h.1.tailsOf, Stmt.MadeAll.tailsOf h.2⟩
theorem Stmt.MadeFirst.tailsOf : ∀ {ss : List (Stmt P)}, Stmt.MadeAll M U ss → Stmt.tailsFirst K ss
  | [], _ => by simp only [Stmt.tailsFirst]
  | s :: ss, h => by
    simp only [Stmt.MadeAll, Stmt.tailsFirst] at *
    exact ⟨h.1.tailsOf, fun t ht => hK t (h.2.mem t ht)⟩
theorem Stmt.MadeOpt.tailsOf : ∀ {o : Option (Stmt P)}, Stmt.MadeOpt M U o → Stmt.tailsOpt K o
  | .none, _ => by simp only [Stmt.tailsOpt]
  | .some s, h => by simp only [Stmt.MadeOpt, Stmt.tailsOpt] at *; exact h.tailsOf
theorem Stmt.MadeClause.tailsOf : ∀ {c : Expr × Option (Stmt P)}, Stmt.MadeClause M U c → Stmt.tailsClause K c
  | (_, b), h => by simp only [Stmt.MadeClause, Stmt.tailsClause] at *; exact Stmt.MadeOpt.tailsOf h.2.2
theorem Stmt.MadeClauses.tailsOf : ∀ {cs : List (Expr × Option (Stmt P))}, Stmt.MadeClauses M U cs → Stmt.tailsClauses K cs
  | [], _ => by simp only [Stmt.tailsClauses]
  | c :: cs, h => by
    simp only [Stmt.MadeClauses, Stmt.tailsClauses] at *
    exact ⟨Stmt.MadeClause.tailsOf h.1, Stmt.MadeClauses.tailsOf h.2⟩
end
end

/-! ### Hypertags of a script with other slots -/

mutual
theorem Stmt.defs_reslot : ∀ s : Stmt P, (s.reslot f).defs = s.defs.map (fun d => (d.1, d.2.reslot f))
  | .xblock _ _ b => by simp only [Stmt.reslot, Stmt.defs]; exact b.defs_reslot
  | .struct _ b => by simp only [Stmt.reslot, Stmt.defs]; exact b.defs_reslot
  | .defn _ _ _ ba as b => by
    simp only [Stmt.reslot, Stmt.defs, List.map_cons]; rw [b.defs_reslot]; rfl
  | .tryBlock bs => by simp only [Stmt.reslot, Stmt.defs]; exact Stmt.defsAll_reslot bs
  | .ifBlock cs els => by
    simp only [Stmt.reslot, Stmt.defs, List.map_append]; rw [Stmt.defsClauses_reslot cs, Stmt.defsOpt_reslot els]
  | .elseClause b => by simp only [Stmt.reslot, Stmt.defs]; exact Stmt.defsOpt_reslot b
  | .whileBlock _ b els => by
    simp only [Stmt.reslot, Stmt.defs, List.map_append]; rw [Stmt.defsOpt_reslot b, Stmt.defsOpt_reslot els]
  | .forBlock _ _ rest => by simp only [Stmt.reslot, Stmt.defs]; exact Stmt.defsAll_reslot rest
  | .body ss => by simp only [Stmt.reslot, Stmt.defs]; exact Stmt.defsAll_reslot ss
  | .indent _ => by simp only [Stmt.reslot, Stmt.defs, List.map_nil]
  | .dedent _ => by simp only [Stmt.reslot, Stmt.defs, List.map_nil]
  | .imports _ _ _ => by simp only [Stmt.reslot, Stmt.defs, List.map_nil]
  | .static _ => by simp only [Stmt.reslot, Stmt.defs, List.map_nil]
  | .line _ => by simp only [Stmt.reslot, Stmt.defs, List.map_nil]
  | .text _ _ => by simp only [Stmt.reslot, Stmt.defs, List.map_nil]
  | .comment => by simp only [Stmt.reslot, Stmt.defs, List.map_nil]
  | .embed _ => by simp only [Stmt.reslot, Stmt.defs, List.map_nil]
  | .exprBlock _ => by simp only [Stmt.reslot, Stmt.defs, List.map_nil]
  | .assign _ _ _ => by simp only [Stmt.reslot, Stmt.defs, List.map_nil]
  | .pass => by simp only [Stmt.reslot, Stmt.defs, List.map_nil]
theorem Stmt.defsAll_reslot : ∀ ss : List (Stmt P), Stmt.defsAll (Stmt.reslotAll f ss) = (Stmt.defsAll ss).map (fun d => (d.1, d.2.reslot f))
  | [] => by simp only [Stmt.reslotAll, Stmt.defsAll, List.map_nil]
  | s :: ss => by simp only [Stmt.reslotAll, Stmt.defsAll, List.map_append]; rw [s.defs_reslot, Stmt.defsAll_reslot ss]
theorem Stmt.defsOpt_reslot : ∀ o : Option (Stmt P), Stmt.defsOpt (Stmt.reslotOpt f o) = (Stmt.defsOpt o).map (fun d => (d.1, d.2.reslot f))
  | none => by simp only [Stmt.reslotOpt, Stmt.defsOpt, List.map_nil]
  | some s => by simp only [Stmt.reslotOpt, Stmt.defsOpt]; exact s.defs_reslot
theorem Stmt.defsClause_reslot : ∀ c : Expr × Option (Stmt P),
    Stmt.defsClause (Stmt.reslotClause f c) = (Stmt.defsClause c).map (fun d => (d.1, d.2.reslot f))
  | (_, b) => by simp only [Stmt.reslotClause, Stmt.defsClause]; exact Stmt.defsOpt_reslot b
theorem Stmt.defsClauses_reslot : ∀ cs : List (Expr × Option (Stmt P)),
    Stmt.defsClauses (Stmt.reslotClauses f cs) = (Stmt.defsClauses cs).map (fun d => (d.1, d.2.reslot f))
  | [] => by simp only [Stmt.reslotClauses, Stmt.defsClauses, List.map_nil]
  | c :: cs => by
    simp only [Stmt.reslotClauses, Stmt.defsClauses, List.map_append]; rw [Stmt.defsClause_reslot c, Stmt.defsClauses_reslot cs]
end

/-! ### Any symbols -/

mutual
theorem Expr.uses_any : ∀ e : Expr, e.uses (fun _ => True)
  | .root _ e => by simp only [Expr.uses]; exact e.uses_any
  | .tagUse _ _ => by simp only [Expr.uses]
  | .varUse _ _ => by simp only [Expr.uses]
  | .factor a ts _ => by simp only [Expr.uses]; exact ⟨a.uses_any, Tail.usesAll_any ts⟩
  | .chain _ a _ es => by simp only [Expr.uses]; exact ⟨a.uses_any, Expr.usesAll_any es⟩
  | .concat es => by simp only [Expr.uses]; exact Expr.usesAll_any es
  | .bits _ a es => by simp only [Expr.uses]; exact ⟨a.uses_any, Expr.usesAll_any es⟩
  | .pipeline a es => by simp only [Expr.uses]; exact ⟨a.uses_any, Expr.usesAll_any es⟩
  | .notTest _ e => by simp only [Expr.uses]; exact e.uses_any
  | .andTest a es => by simp only [Expr.uses]; exact ⟨a.uses_any, Expr.usesAll_any es⟩
  | .orTest a es => by simp only [Expr.uses]; exact ⟨a.uses_any, Expr.usesAll_any es⟩
  | .ifElse x t y => by simp only [Expr.uses]; exact ⟨x.uses_any, t.uses_any, Expr.usesOpt_any y⟩
  | .list es => by simp only [Expr.uses]; exact Expr.usesAll_any es
  | .tuple es => by simp only [Expr.uses]; exact Expr.usesAll_any es
  | .set es => by simp only [Expr.uses]; exact Expr.usesAll_any es
  | .dict es => by simp only [Expr.uses]; exact Expr.usesAll_any es
  | .format es => by simp only [Expr.uses]; exact Expr.usesAll_any es
  | .static _ => by simp only [Expr.uses]
  | .strLit _ => by simp only [Expr.uses]
  | .number _ => by simp only [Expr.uses]
  | .boolean _ => by simp only [Expr.uses]
  | .noneLit => by simp only [Expr.uses]
  | .sliceNone => by simp only [Expr.uses]
theorem Expr.usesAll_any : ∀ es : List Expr, Expr.usesAll (fun _ => True) es
  | [] => by simp only [Expr.usesAll]
  | e :: es => by simp only [Expr.usesAll]; exact ⟨e.uses_any, Expr.usesAll_any es⟩
theorem Expr.usesOpt_any : ∀ o : Option Expr, Expr.usesOpt (fun _ => True) o
  | none => by simp only [Expr.usesOpt]
  | some e => by simp only [Expr.usesOpt]; exact e.uses_any
theorem Tail.usesAll_any : ∀ ts : List Tail, Tail.usesAll (fun _ => True) ts
  | [] => by simp only [Tail.usesAll]
  | t :: ts => by simp only [Tail.usesAll]; exact ⟨t.uses_any, Tail.usesAll_any ts⟩
theorem Tail.uses_any : ∀ t : Tail, t.uses (fun _ => True)
  | .call _ es => by simp only [Tail.uses]; exact Expr.usesAll_any es
  | .partialCall _ es => by simp only [Tail.uses]; exact Expr.usesAll_any es
  | .index es => by simp only [Tail.uses]; exact Expr.usesAll_any es
  | .member _ => by simp only [Tail.uses]
end

mutual
theorem Target.onlyNames_any : ∀ t : Target, t.onlyNames (fun _ => True)
  | .var _ _ _ _ => by simp only [Target.onlyNames]
  | .many ts => by simp only [Target.onlyNames]; exact Target.onlyNamesAll_any ts
theorem Target.onlyNamesAll_any : ∀ ts : List Target, Target.onlyNamesAll (fun _ => True) ts
  | [] => by simp only [Target.onlyNamesAll]
  | t :: ts => by simp only [Target.onlyNamesAll]; exact ⟨t.onlyNames_any, Target.onlyNamesAll_any ts⟩
end

theorem Line.uses_any (l : Line) : l.uses (fun _ => True) := by
  cases l <;> simp only [Line.uses]
  · exact Expr.usesAll_any _
  · exact Expr.usesAll_any _

theorem TagExp.uses_any (t : TagExp) : t.uses (fun _ => True) := by
  cases t <;> simp only [TagExp.uses]
  exact ⟨Expr.usesAll_any _, fun n _ => n.2.uses_any, trivial⟩

section
variable (src : Source P I)

mutual
theorem Stmt.onlyNames_any : ∀ s : Stmt P, s.onlyNames src (fun _ => True)
  | .xblock _ _ b => by simp only [Stmt.onlyNames]; exact b.onlyNames_any
  | .struct ts b => by simp only [Stmt.onlyNames]; exact ⟨fun t _ => t.uses_any, b.onlyNames_any⟩
  | .defn _ _ _ ba as b => by
    simp only [Stmt.onlyNames]; exact ⟨trivial, fun a _ => ⟨trivial, Expr.usesOpt_any _⟩, b.onlyNames_any⟩
  | .imports _ path items => by
    simp only [Stmt.onlyNames]
    intro i _
    cases i <;> simp [ImportItem.onlyNames]
  | .tryBlock bs => by simp only [Stmt.onlyNames]; exact Stmt.onlyNamesAll_any bs
  | .ifBlock cs els => by simp only [Stmt.onlyNames]; exact ⟨Stmt.onlyNamesClauses_any cs, Stmt.onlyNamesOpt_any els⟩
  | .elseClause b => by simp only [Stmt.onlyNames]; exact Stmt.onlyNamesOpt_any b
  | .whileBlock t b els => by simp only [Stmt.onlyNames]; exact ⟨t.uses_any, Stmt.onlyNamesOpt_any b, Stmt.onlyNamesOpt_any els⟩
  | .forBlock t e rest => by simp only [Stmt.onlyNames]; exact ⟨e.uses_any, t.onlyNames_any, Stmt.onlyNamesAll_any rest⟩
  | .body ss => by simp only [Stmt.onlyNames]; exact Stmt.onlyNamesAll_any ss
  | .indent _ => by simp only [Stmt.onlyNames]
  | .dedent _ => by simp only [Stmt.onlyNames]
  | .static _ => by simp only [Stmt.onlyNames]
  | .line l => by simp only [Stmt.onlyNames]; exact l.uses_any
  | .text _ is => by
    simp only [Stmt.onlyNames]
    intro i _
    cases i <;> simp only [TextItem.uses]
    exact Line.uses_any _
  | .comment => by simp only [Stmt.onlyNames]
  | .embed e => by simp only [Stmt.onlyNames]; exact e.uses_any
  | .exprBlock e => by simp only [Stmt.onlyNames]; exact e.uses_any
  | .assign t _ e => by simp only [Stmt.onlyNames]; exact ⟨e.uses_any, t.onlyNames_any⟩
  | .pass => by simp only [Stmt.onlyNames]
theorem Stmt.onlyNamesAll_any : ∀ ss : List (Stmt P), Stmt.onlyNamesAll src (fun _ => True) ss
  | [] => by simp only [Stmt.onlyNamesAll]
  | s :: ss => by simp only [Stmt.onlyNamesAll]; exact ⟨s.onlyNames_any, Stmt.onlyNamesAll_any ss⟩
theorem Stmt.onlyNamesOpt_any : ∀ o : Option (Stmt P), Stmt.onlyNamesOpt src (fun _ => True) o
  | none => by simp only [Stmt.onlyNamesOpt]
  | some s => by simp only [Stmt.onlyNamesOpt]; exact s.onlyNames_any
theorem Stmt.onlyNamesClause_any : ∀ c : Expr × Option (Stmt P), Stmt.onlyNamesClause src (fun _ => True) c
  | (t, b) => by simp only [Stmt.onlyNamesClause]; exact ⟨t.uses_any, Stmt.onlyNamesOpt_any b⟩
theorem Stmt.onlyNamesClauses_any : ∀ cs : List (Expr × Option (Stmt P)), Stmt.onlyNamesClauses src (fun _ => True) cs
  | [] => by simp only [Stmt.onlyNamesClauses]
  | c :: cs => by simp only [Stmt.onlyNamesClauses]; exact ⟨Stmt.onlyNamesClause_any c, Stmt.onlyNamesClauses_any cs⟩
end
end

end
end Verif
