import Verif.Spec.Reslot

/-! Slots changed twice, or not at all. -/

namespace Verif
open Py

section
variable {P : Type} (g f : Slot → Slot)

theorem map_twice (o : Option Slot) : (o.map f).map g = o.map (fun s => g (f s)) := by cases o <;> rfl

mutual
theorem Expr.reslot_twice : ∀ e : Expr, (e.reslot f).reslot g = e.reslot (fun s => g (f s))
  | .root _ e => by simp only [Expr.reslot, e.reslot_twice]
  | .tagUse _ _ => by simp only [Expr.reslot, map_twice]
  | .varUse _ _ => by simp only [Expr.reslot, map_twice]
  | .factor a t _ => by simp only [Expr.reslot, a.reslot_twice, Tail.reslotAll_twice t]
  | .chain _ h _ es => by simp only [Expr.reslot, h.reslot_twice, Expr.reslotAll_twice es]
  | .concat es => by simp only [Expr.reslot, Expr.reslotAll_twice es]
  | .bits _ h es => by simp only [Expr.reslot, h.reslot_twice, Expr.reslotAll_twice es]
  | .pipeline h es => by simp only [Expr.reslot, h.reslot_twice, Expr.reslotAll_twice es]
  | .notTest _ e => by simp only [Expr.reslot, e.reslot_twice]
  | .andTest h es => by simp only [Expr.reslot, h.reslot_twice, Expr.reslotAll_twice es]
  | .orTest h es => by simp only [Expr.reslot, h.reslot_twice, Expr.reslotAll_twice es]
  | .ifElse x t y => by simp only [Expr.reslot, x.reslot_twice, t.reslot_twice, Expr.reslotOpt_twice y]
  | .list es => by simp only [Expr.reslot, Expr.reslotAll_twice es]
  | .tuple es => by simp only [Expr.reslot, Expr.reslotAll_twice es]
  | .set es => by simp only [Expr.reslot, Expr.reslotAll_twice es]
  | .dict es => by simp only [Expr.reslot, Expr.reslotAll_twice es]
  | .format es => by simp only [Expr.reslot, Expr.reslotAll_twice es]
  | .static _ => by simp only [Expr.reslot]
  | .strLit _ => by simp only [Expr.reslot]
  | .number _ => by simp only [Expr.reslot]
  | .boolean _ => by simp only [Expr.reslot]
  | .noneLit => by simp only [Expr.reslot]
  | .sliceNone => by simp only [Expr.reslot]
theorem Expr.reslotAll_twice : ∀ es : List Expr, Expr.reslotAll g (Expr.reslotAll f es) = Expr.reslotAll (fun s => g (f s)) es
  | [] => by simp only [Expr.reslotAll]
  | e :: es => by simp only [Expr.reslotAll, e.reslot_twice, Expr.reslotAll_twice es]
theorem Expr.reslotOpt_twice : ∀ o : Option Expr, Expr.reslotOpt g (Expr.reslotOpt f o) = Expr.reslotOpt (fun s => g (f s)) o
  | none => by simp only [Expr.reslotOpt]
  | some e => by simp only [Expr.reslotOpt, e.reslot_twice]
theorem Tail.reslotAll_twice : ∀ ts : List Tail, Tail.reslotAll g (Tail.reslotAll f ts) = Tail.reslotAll (fun s => g (f s)) ts
  | [] => by simp only [Tail.reslotAll]
  | t :: ts => by simp only [Tail.reslotAll, t.reslot_twice, Tail.reslotAll_twice ts]
theorem Tail.reslot_twice : ∀ t : Tail, (t.reslot f).reslot g = t.reslot (fun s => g (f s))
  | .call _ es => by simp only [Tail.reslot, Expr.reslotAll_twice es]
  | .partialCall _ es => by simp only [Tail.reslot, Expr.reslotAll_twice es]
  | .index es => by simp only [Tail.reslot, Expr.reslotAll_twice es]
  | .member _ => by simp only [Tail.reslot]
end

mutual
theorem Target.reslot_twice : ∀ t : Target, (t.reslot f).reslot g = t.reslot (fun s => g (f s))
  | .var _ _ _ _ => by simp only [Target.reslot, map_twice]
  | .many ts => by simp only [Target.reslot, Target.reslotAll_twice ts]
theorem Target.reslotAll_twice : ∀ ts : List Target, Target.reslotAll g (Target.reslotAll f ts) = Target.reslotAll (fun s => g (f s)) ts
  | [] => by simp only [Target.reslotAll]
  | t :: ts => by simp only [Target.reslotAll, t.reslot_twice, Target.reslotAll_twice ts]
end

theorem Line.reslot_twice (l : Line) : (l.reslot f).reslot g = l.reslot (fun s => g (f s)) := by
  cases l <;> simp only [Line.reslot, Expr.reslotAll_twice]

theorem TextItem.reslot_twice (i : TextItem) : (i.reslot f).reslot g = i.reslot (fun s => g (f s)) := by
  cases i <;> simp only [TextItem.reslot, Line.reslot_twice]

theorem TagExp.reslot_twice (t : TagExp) : (t.reslot f).reslot g = t.reslot (fun s => g (f s)) := by
  cases t <;> simp only [TagExp.reslot, Expr.reslotAll_twice, map_twice, List.map_map, Function.comp_def, Expr.reslot_twice]

theorem AttrDef.reslot_twice (a : AttrDef) : (a.reslot f).reslot g = a.reslot (fun s => g (f s)) := by
  simp only [AttrDef.reslot, Expr.reslotOpt_twice, map_twice]

theorem ImportItem.reslot_twice (i : ImportItem P) : (i.reslot f).reslot g = i.reslot (fun s => g (f s)) := by
  cases i <;> simp only [ImportItem.reslot, Option.map_map, List.map_map, Function.comp_def]

theorem attr_twice (o : Option AttrDef) : (o.map (AttrDef.reslot f)).map (AttrDef.reslot g) = o.map (AttrDef.reslot (fun s => g (f s))) := by
  cases o <;> simp only [Option.map_none, Option.map_some, AttrDef.reslot_twice]

mutual
theorem Stmt.reslot_twice : ∀ s : Stmt P, (s.reslot f).reslot g = s.reslot (fun s => g (f s))
  | .static _ => by simp only [Stmt.reslot]
  | .indent _ => by simp only [Stmt.reslot]
  | .dedent _ => by simp only [Stmt.reslot]
  | .line l => by simp only [Stmt.reslot, l.reslot_twice]
  | .xblock _ _ b => by simp only [Stmt.reslot, b.reslot_twice]
  | .text _ items => by simp only [Stmt.reslot, List.map_map, Function.comp_def, TextItem.reslot_twice]
  | .comment => by simp only [Stmt.reslot]
  | .embed e => by simp only [Stmt.reslot, e.reslot_twice]
  | .struct tags b => by simp only [Stmt.reslot, List.map_map, Function.comp_def, TagExp.reslot_twice, b.reslot_twice]
  | .defn _ _ _ ba as b => by
    simp only [Stmt.reslot, List.map_map, Function.comp_def, AttrDef.reslot_twice, b.reslot_twice, map_twice, attr_twice]
  | .imports _ _ items => by simp only [Stmt.reslot, List.map_map, Function.comp_def, ImportItem.reslot_twice]
  | .tryBlock bs => by simp only [Stmt.reslot, Stmt.reslotAll_twice bs]
  | .ifBlock cs els => by simp only [Stmt.reslot, Stmt.reslotClauses_twice cs, Stmt.reslotOpt_twice els]
  | .elseClause b => by simp only [Stmt.reslot, Stmt.reslotOpt_twice b]
  | .whileBlock t b els => by simp only [Stmt.reslot, t.reslot_twice, Stmt.reslotOpt_twice b, Stmt.reslotOpt_twice els]
  | .forBlock t e rest => by simp only [Stmt.reslot, t.reslot_twice, e.reslot_twice, Stmt.reslotAll_twice rest]
  | .exprBlock e => by simp only [Stmt.reslot, e.reslot_twice]
  | .assign t _ e => by simp only [Stmt.reslot, t.reslot_twice, e.reslot_twice]
  | .body ss => by simp only [Stmt.reslot, Stmt.reslotAll_twice ss]
  | .pass => by simp only [Stmt.reslot]
theorem Stmt.reslotAll_twice : ∀ ss : List (Stmt P), Stmt.reslotAll g (Stmt.reslotAll f ss) = Stmt.reslotAll (fun s => g (f s)) ss
  | [] => by simp only [Stmt.reslotAll]
  | s :: ss => by simp only [Stmt.reslotAll, s.reslot_twice, Stmt.reslotAll_twice ss]
theorem Stmt.reslotOpt_twice : ∀ o : Option (Stmt P), Stmt.reslotOpt g (Stmt.reslotOpt f o) = Stmt.reslotOpt (fun s => g (f s)) o
  | none => by simp only [Stmt.reslotOpt]
  | some s => by simp only [Stmt.reslotOpt, s.reslot_twice]
theorem Stmt.reslotClause_twice : ∀ c : Expr × Option (Stmt P), Stmt.reslotClause g (Stmt.reslotClause f c) = Stmt.reslotClause (fun s => g (f s)) c
  | (t, b) => by simp only [Stmt.reslotClause, t.reslot_twice, Stmt.reslotOpt_twice b]
theorem Stmt.reslotClauses_twice : ∀ cs : List (Expr × Option (Stmt P)),
    Stmt.reslotClauses g (Stmt.reslotClauses f cs) = Stmt.reslotClauses (fun s => g (f s)) cs
  | [] => by simp only [Stmt.reslotClauses]
  | c :: cs => by simp only [Stmt.reslotClauses, Stmt.reslotClause_twice c, Stmt.reslotClauses_twice cs]
end

theorem DefInfo.reslot_twice (d : DefInfo P) : (d.reslot f).reslot g = d.reslot (fun s => g (f s)) := by
  simp only [DefInfo.reslot, attr_twice, List.map_map, Function.comp_def, AttrDef.reslot_twice, Stmt.reslot_twice]

end

section
variable {P : Type}

theorem maps_same {α : Type} {g : α → α} (h : ∀ a, g a = a) (l : List α) : l.map g = l := by
  induction l with
  | nil => rfl
  | cons a l ih => rw [List.map_cons, h, ih]

theorem map_same (o : Option Slot) : o.map (fun s => s) = o := by cases o <;> rfl

mutual
theorem Expr.reslot_same : ∀ e : Expr, e.reslot (fun s => s) = e
  | .root _ e => by simp only [Expr.reslot, e.reslot_same]
  | .tagUse _ _ => by simp only [Expr.reslot, map_same]
  | .varUse _ _ => by simp only [Expr.reslot, map_same]
  | .factor a t _ => by simp only [Expr.reslot, a.reslot_same, Tail.reslotAll_same t]
  | .chain _ h _ es => by simp only [Expr.reslot, h.reslot_same, Expr.reslotAll_same es]
  | .concat es => by simp only [Expr.reslot, Expr.reslotAll_same es]
  | .bits _ h es => by simp only [Expr.reslot, h.reslot_same, Expr.reslotAll_same es]
  | .pipeline h es => by simp only [Expr.reslot, h.reslot_same, Expr.reslotAll_same es]
  | .notTest _ e => by simp only [Expr.reslot, e.reslot_same]
  | .andTest h es => by simp only [Expr.reslot, h.reslot_same, Expr.reslotAll_same es]
  | .orTest h es => by simp only [Expr.reslot, h.reslot_same, Expr.reslotAll_same es]
  | .ifElse x t y => by simp only [Expr.reslot, x.reslot_same, t.reslot_same, Expr.reslotOpt_same y]
  | .list es => by simp only [Expr.reslot, Expr.reslotAll_same es]
  | .tuple es => by simp only [Expr.reslot, Expr.reslotAll_same es]
  | .set es => by simp only [Expr.reslot, Expr.reslotAll_same es]
  | .dict es => by simp only [Expr.reslot, Expr.reslotAll_same es]
  | .format es => by simp only [Expr.reslot, Expr.reslotAll_same es]
  | .static _ => by simp only [Expr.reslot]
  | .strLit _ => by simp only [Expr.reslot]
  | .number _ => by simp only [Expr.reslot]
  | .boolean _ => by simp only [Expr.reslot]
  | .noneLit => by simp only [Expr.reslot]
  | .sliceNone => by simp only [Expr.reslot]
theorem Expr.reslotAll_same : ∀ es : List Expr, Expr.reslotAll (fun s => s) es = es
  | [] => by simp only [Expr.reslotAll]
  | e :: es => by simp only [Expr.reslotAll, e.reslot_same, Expr.reslotAll_same es]
theorem Expr.reslotOpt_same : ∀ o : Option Expr, Expr.reslotOpt (fun s => s) o = o
  | none => by simp only [Expr.reslotOpt]
  | some e => by simp only [Expr.reslotOpt, e.reslot_same]
theorem Tail.reslotAll_same : ∀ ts : List Tail, Tail.reslotAll (fun s => s) ts = ts
  | [] => by simp only [Tail.reslotAll]
  | t :: ts => by simp only [Tail.reslotAll, t.reslot_same, Tail.reslotAll_same ts]
theorem Tail.reslot_same : ∀ t : Tail, t.reslot (fun s => s) = t
  | .call _ es => by simp only [Tail.reslot, Expr.reslotAll_same es]
  | .partialCall _ es => by simp only [Tail.reslot, Expr.reslotAll_same es]
  | .index es => by simp only [Tail.reslot, Expr.reslotAll_same es]
  | .member _ => by simp only [Tail.reslot]
end

mutual
theorem Target.reslot_same : ∀ t : Target, t.reslot (fun s => s) = t
  | .var _ _ _ _ => by simp only [Target.reslot, map_same]
  | .many ts => by simp only [Target.reslot, Target.reslotAll_same ts]
theorem Target.reslotAll_same : ∀ ts : List Target, Target.reslotAll (fun s => s) ts = ts
  | [] => by simp only [Target.reslotAll]
  | t :: ts => by simp only [Target.reslotAll, t.reslot_same, Target.reslotAll_same ts]
end

theorem Line.reslot_same (l : Line) : l.reslot (fun s => s) = l := by
  cases l <;> simp only [Line.reslot, Expr.reslotAll_same]

theorem TextItem.reslot_same (i : TextItem) : i.reslot (fun s => s) = i := by
  cases i <;> simp only [TextItem.reslot, Line.reslot_same]

theorem TagExp.reslot_same (t : TagExp) : t.reslot (fun s => s) = t := by
  cases t <;> simp only [TagExp.reslot, Expr.reslotAll_same, map_same, List.map_id', Expr.reslot_same]

theorem AttrDef.reslot_same (a : AttrDef) : a.reslot (fun s => s) = a := by
  simp only [AttrDef.reslot, Expr.reslotOpt_same, map_same]

theorem ImportItem.reslot_same (i : ImportItem P) : i.reslot (fun s => s) = i := by
  cases i with
  | wild slots => cases slots <;> simp only [ImportItem.reslot, Option.map_none, Option.map_some, maps_same (fun _ => rfl)]
  | name _ _ slot => cases slot <;> rfl
  | cntx _ _ slot => cases slot <;> rfl

theorem attr_same (o : Option AttrDef) : o.map (AttrDef.reslot (fun s => s)) = o := by
  cases o <;> simp only [Option.map_none, Option.map_some, AttrDef.reslot_same]

mutual
theorem Stmt.reslot_same : ∀ s : Stmt P, s.reslot (fun s => s) = s
  | .static _ => by simp only [Stmt.reslot]
  | .indent _ => by simp only [Stmt.reslot]
  | .dedent _ => by simp only [Stmt.reslot]
  | .line l => by simp only [Stmt.reslot, l.reslot_same]
  | .xblock _ _ b => by simp only [Stmt.reslot, b.reslot_same]
  | .text _ items => by simp only [Stmt.reslot, maps_same TextItem.reslot_same]
  | .comment => by simp only [Stmt.reslot]
  | .embed e => by simp only [Stmt.reslot, e.reslot_same]
  | .struct tags b => by simp only [Stmt.reslot, maps_same TagExp.reslot_same, b.reslot_same]
  | .defn _ _ _ ba as b => by
    simp only [Stmt.reslot, maps_same AttrDef.reslot_same, b.reslot_same, map_same, attr_same]
  | .imports _ _ items => by simp only [Stmt.reslot, maps_same ImportItem.reslot_same]
  | .tryBlock bs => by simp only [Stmt.reslot, Stmt.reslotAll_same bs]
  | .ifBlock cs els => by simp only [Stmt.reslot, Stmt.reslotClauses_same cs, Stmt.reslotOpt_same els]
  | .elseClause b => by simp only [Stmt.reslot, Stmt.reslotOpt_same b]
  | .whileBlock t b els => by simp only [Stmt.reslot, t.reslot_same, Stmt.reslotOpt_same b, Stmt.reslotOpt_same els]
  | .forBlock t e rest => by simp only [Stmt.reslot, t.reslot_same, e.reslot_same, Stmt.reslotAll_same rest]
  | .exprBlock e => by simp only [Stmt.reslot, e.reslot_same]
  | .assign t _ e => by simp only [Stmt.reslot, t.reslot_same, e.reslot_same]
  | .body ss => by simp only [Stmt.reslot, Stmt.reslotAll_same ss]
  | .pass => by simp only [Stmt.reslot]
theorem Stmt.reslotAll_same : ∀ ss : List (Stmt P), Stmt.reslotAll (fun s => s) ss = ss
  | [] => by simp only [Stmt.reslotAll]
  | s :: ss => by simp only [Stmt.reslotAll, s.reslot_same, Stmt.reslotAll_same ss]
theorem Stmt.reslotOpt_same : ∀ o : Option (Stmt P), Stmt.reslotOpt (fun s => s) o = o
  | none => by simp only [Stmt.reslotOpt]
  | some s => by simp only [Stmt.reslotOpt, s.reslot_same]
theorem Stmt.reslotClause_same : ∀ c : Expr × Option (Stmt P), Stmt.reslotClause (fun s => s) c = c
  | (t, b) => by simp only [Stmt.reslotClause, t.reslot_same, Stmt.reslotOpt_same b]
theorem Stmt.reslotClauses_same : ∀ cs : List (Expr × Option (Stmt P)),
    Stmt.reslotClauses (fun s => s) cs = cs
  | [] => by simp only [Stmt.reslotClauses]
  | c :: cs => by simp only [Stmt.reslotClauses, Stmt.reslotClause_same c, Stmt.reslotClauses_same cs]
end

theorem DefInfo.reslot_same (d : DefInfo P) : d.reslot (fun s => s) = d := by
  simp only [DefInfo.reslot, attr_same, maps_same AttrDef.reslot_same, Stmt.reslot_same]

end
end Verif
