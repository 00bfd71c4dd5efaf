import Verif.Lemmas.Visible

/-! The symbols that are bound by analysis of a statement. -/

set_option linter.unusedSectionVars false

namespace Verif
open Py Spec Ctx

section
variable {P I : Type}

/-- Only symbols of `D` were bound, on the same level. -/
structure Ctx.Grows (D : List Str) (c c' : Ctx) : Prop where
  binds : ∃ new, c'.binds = c.binds ++ new ∧ ∀ x ∈ new, x.1 ∈ D
  regular : c'.regular = c.regular
  control : c'.control = c.control
  hypertag : c'.hypertag = c.hypertag

namespace Ctx.Grows

theorem refl (D : List Str) (c : Ctx) : c.Grows D c := ⟨⟨[], by simp, by simp⟩, rfl, rfl, rfl⟩

theorem trans {D D' : List Str} {c1 c2 c3 : Ctx} (h : c1.Grows D c2) (h' : c2.Grows D' c3) : c1.Grows (D ++ D') c3 := by
  obtain ⟨n, e, hn⟩ := h.binds
  obtain ⟨n', e', hn'⟩ := h'.binds
  refine ⟨⟨n ++ n', by rw [e', e, List.append_assoc], fun x hx => ?_⟩, h'.regular.trans h.regular, h'.control.trans h.control,
    h'.hypertag.trans h.hypertag⟩
  rcases List.mem_append.1 hx with hx | hx
  · exact List.mem_append_left _ (hn x hx)
  · exact List.mem_append_right _ (hn' x hx)

theorem mono {D D' : List Str} {c c' : Ctx} (h : c.Grows D c') (hs : ∀ y ∈ D, y ∈ D') : c.Grows D' c' := by
  obtain ⟨n, e, hn⟩ := h.binds
  exact ⟨⟨n, e, fun x hx => hs _ (hn x hx)⟩, h.regular, h.control, h.hypertag⟩

theorem take {D : List Str} {c c' : Ctx} (h : c.Grows D c') : c'.binds.take c.binds.length = c.binds := by
  obtain ⟨n, e, _⟩ := h.binds
  rw [e]; simp

/-- At the end of a local namespace nothing is left of it. -/
theorem leave {D : List Str} {c c1 c' : Ctx} (hb : c1.binds = c.binds) (hc : c1.control = c.control) (h : c1.Grows D c') : c.Grows [] (c.leave c') :=
  ⟨⟨[], by simp only [Ctx.leave, List.append_nil]; rw [← hb, h.take], by simp⟩, rfl, h.control.trans hc, rfl⟩

theorem pushnew (c : Ctx) (ps : List (Str × SlotInfo)) : c.Grows (ps.map Prod.fst) (c.pushnew ps) := by
  induction ps generalizing c with
  | nil => exact refl _ c
  | cons x ps ih =>
    obtain ⟨k, v⟩ := x
    simp only [Ctx.pushnew]
    split
    · exact (ih c).mono (fun y hy => by simp only [List.map_cons]; exact List.mem_cons_of_mem _ hy)
    · have h1 : c.Grows [k] (c.push k v) := ⟨⟨[(k, v)], rfl, by simp⟩, rfl, rfl, rfl⟩
      exact h1.trans (ih _)

theorem merge {D : List Str} {c c' : Ctx} (h : c.Grows D c') : c.Grows D (c.mergeBranch c') := by
  obtain ⟨n, e, hn⟩ := h.binds
  have h1 := pushnew { c' with binds := c'.binds.take c.binds.length } (Dict.update [] (c'.binds.drop c.binds.length))
  obtain ⟨m, e', hm⟩ := h1.binds
  refine ⟨⟨m, ?_, fun x hx => ?_⟩, h1.regular.trans h.regular, h1.control.trans h.control, h1.hypertag.trans h.hypertag⟩
  · show (Ctx.pushnew _ _).binds = _
    rw [e']
    simp only [h.take]
  · have := (keys_update _ _ _).1 (hm x hx)
    rcases this with h | h
    · exact absurd h (by simp)
    · rw [e, List.drop_left] at h
      obtain ⟨y, hy, e⟩ := List.mem_map.1 h
      rw [← e]; exact hn y hy

theorem control_back {D : List Str} {c c' : Ctx} {n : Nat} (h : Ctx.Grows D { c with control := n } c') : c.Grows D { c' with control := c.control } :=
  ⟨h.binds, h.regular, rfl, h.hypertag⟩

end Ctx.Grows

theorem newSlot_grows (c : Ctx) (sym : Str) : Post (fun r => c.Grows [sym] r.2) (newSlot c sym : Except (AErr I) (SlotInfo × Ctx)) := by
  unfold newSlot
  split
  · exact .ok ⟨⟨[_], rfl, by simp⟩, rfl, rfl, rfl⟩
  · exact .error

theorem declare_grows (c : Ctx) (sym : Str) : Post (fun r => c.Grows [sym] r.2) (declare c sym : Except (AErr I) (SlotInfo × Ctx)) := by
  unfold declare
  refine (newSlot_grows c sym).bind ?_
  rintro ⟨s, c1⟩ h
  refine .pure ((h.trans (⟨⟨[(sym, s)], rfl, by simp⟩, rfl, rfl, rfl⟩ : c1.Grows [sym] (c1.push sym s))).mono (by simp))

theorem writeSlot_grows (c : Ctx) (sym : Str) : Post (fun r => c.Grows [sym] r.2) (writeSlot c sym : Except (AErr I) (SlotInfo × Ctx)) := by
  unfold writeSlot
  split
  · split
    · exact .ok (.refl _ c)
    · exact declare_grows c sym
  · exact declare_grows c sym

theorem post_any {α : Type} (r : Except (AErr I) α) : Post (fun _ => True) r := fun _ _ => trivial

mutual
theorem analyseTarget_grows : ∀ (t : Target) (c : Ctx), Post (fun r => c.Grows t.defines r.2) (analyseTarget t c : Except (AErr I) (Target × Ctx))
  | .var name read _ _, c => by
    simp only [analyseTarget, Target.defines]
    refine (post_any _).bind (fun _ _ => (writeSlot_grows c _).bind ?_)
    rintro ⟨s, c1⟩ h
    exact .pure h
  | .many ts, c => by
    simp only [analyseTarget, Target.defines]
    refine (analyseTargets_grows ts c).bind ?_
    rintro ⟨s, c1⟩ h
    exact .pure h
theorem analyseTargets_grows : ∀ (ts : List Target) (c : Ctx),
    Post (fun r => c.Grows (Target.definesAll ts) r.2) (analyseTargets ts c : Except (AErr I) (List Target × Ctx))
  | [], c => by simp only [analyseTargets]; exact .pure (.refl _ c)
  | t :: ts, c => by
    simp only [analyseTargets, Target.definesAll]
    refine (analyseTarget_grows t c).bind ?_
    rintro ⟨s, c1⟩ h
    refine (analyseTargets_grows ts c1).bind ?_
    rintro ⟨s', c2⟩ h'
    exact .pure (h.trans h')
end

theorem declareAttrs_grows (as : List AttrDef) (c : Ctx) :
    Post (fun r => c.Grows (as.map (fun a => '$' :: a.name)) r.2) (declareAttrs as c : Except (AErr I) (List AttrDef × Ctx)) := by
  induction as generalizing c with
  | nil => exact .pure (.refl _ c)
  | cons a as ih =>
    simp only [declareAttrs, List.map_cons]
    refine (declare_grows c _).bind ?_
    rintro ⟨s, c1⟩ h
    refine (ih c1).bind ?_
    rintro ⟨s', c2⟩ h'
    exact .pure (h.trans h')

theorem valueSlots_grows (l : List (Str × Val P)) (c : Ctx) :
    Post (fun r => c.Grows (l.map Prod.fst) r.2) (valueSlots l c : Except (AErr I) _) := by
  induction l generalizing c with
  | nil => exact .pure (.refl _ c)
  | cons a l ih =>
    obtain ⟨sym, v⟩ := a
    simp only [valueSlots, List.map_cons]
    refine (newSlot_grows c sym).bind ?_
    rintro ⟨s, c1⟩ h
    refine (ih c1).bind ?_
    rintro ⟨s', c2⟩ h'
    exact .pure (h.trans h')

theorem analyseImport_grows (src : Source P I) (path : Option Str) (i : ImportItem P) (c : Ctx) :
    Post (fun r => c.Grows (i.defines src path) r.2) (analyseImport src path i c : Except (AErr I) _) := by
  cases i with
  | wild old =>
    simp only [analyseImport]
    refine Post.bind (loadModule_judge src path).post ?_
    rintro ⟨symbols, st⟩ hm
    refine Post.bind (publicSymbols_judge st symbols).post ?_
    rintro pub rfl
    refine Post.bind (valueSlots_grows _ c) ?_
    rintro ⟨l, c1⟩ h
    refine .pure ?_
    have : (ImportItem.wild old).defines src path =
        ((symbols.filter (fun x => isPublic x.1)).map (fun x => (x.1, importValue x.1 st x.2))).map
          Prod.fst := by
      simp only [ImportItem.defines, wildNames, hm, List.map_map, List.filter_map]
      rfl
    rw [this]
    exact h
  | name sym ren old =>
    simp only [analyseImport]
    split
    · exact .error
    · refine Post.bind (loadModule_judge src path).post ?_
      rintro ⟨symbols, st⟩ hm
      simp only
      cases Dict.get? symbols sym with
      | none => exact .error
      | some v =>
        refine Post.bind (newSlot_grows c _) ?_
        rintro ⟨s, c1⟩ h
        refine .pure ?_
        cases ren <;> exact h
  | cntx sym ren old =>
    simp only [analyseImport]
    cases Dict.get? src.context sym with
    | none => exact .error
    | some v =>
      refine Post.bind (newSlot_grows c _) ?_
      rintro ⟨s, c1⟩ h
      refine .pure ?_
      cases ren <;> exact h

theorem analyseImports_grows (src : Source P I) (path : Option Str) (is : List (ImportItem P)) (c : Ctx) :
    Post (fun r => c.Grows (is.flatMap (fun i => i.defines src path)) r.2) (analyseImports src path is c : Except (AErr I) _) := by
  induction is generalizing c with
  | nil => exact .pure (.refl _ c)
  | cons i is ih =>
    simp only [analyseImports]
    refine Post.bind (analyseImport_grows src path i c) ?_
    rintro ⟨i', c1⟩ h
    refine Post.bind (ih c1) ?_
    rintro ⟨is', c2⟩ h'
    exact .pure (h.trans h')

theorem leaveProlog_grows (b : Stmt P) (c : Ctx) : c.Grows [] (leaveProlog b c) := by
  unfold leaveProlog
  split
  · exact .refl _ c
  · exact .refl _ c
  · exact ⟨⟨[], by simp, by simp⟩, rfl, rfl, rfl⟩

variable (src : Source P I)

mutual
theorem analyse_grows : ∀ (s : Stmt P) (c : Ctx), Post (fun r => c.Grows (s.defines src) r.2) (analyse src s c)
  | .static _, c => by simp only [analyse]; exact .pure (.refl _ c)
  | .indent _, c => by simp only [analyse]; exact .pure (.refl _ c)
  | .dedent _, c => by simp only [analyse]; exact .pure (.refl _ c)
  | .line _, c => by simp only [analyse]; exact (post_any _).bind (fun _ _ => .pure (.refl _ c))
  | .xblock _ _ b, c => by
    simp only [analyse, Stmt.defines]
    refine (analyse_grows b _).bind ?_
    rintro ⟨s, c1⟩ h
    exact .pure ((leaveProlog_grows b c).trans h)
  | .text _ _, c => by simp only [analyse]; exact (post_any _).bind (fun _ _ => .pure (.refl _ c))
  | .comment, c => by simp only [analyse]; exact .pure (.refl _ c)
  | .embed _, c => by simp only [analyse]; exact (post_any _).bind (fun _ _ => .pure (.refl _ c))
  | .struct _ b, c => by
    simp only [analyse, Stmt.defines]
    refine (post_any _).bind (fun _ _ => (analyse_grows b _).bind ?_)
    rintro ⟨s, c1⟩ h
    exact .pure (Ctx.Grows.leave (c := c) (c1 := { c with regular := c.regular + 1 }) rfl rfl h)
  | .defn _ name _ ba as b, c => by
    simp only [analyse, Stmt.defines]
    split
    · exact .error
    · refine (post_any _).bind (fun _ _ => (post_any _).bind (fun _ _ => (declareAttrs_grows _ _).bind ?_))
      rintro ⟨s, c1⟩ h1
      refine (declareAttrs_grows _ _).bind ?_
      rintro ⟨s, c2⟩ h2
      refine (analyse_grows b _).bind ?_
      rintro ⟨s, c3⟩ h3
      refine (newSlot_grows _ _).bind ?_
      rintro ⟨s, c4⟩ h4
      exact .pure ((Ctx.Grows.leave (c := c) (c1 := { c with regular := c.regular + 1, hypertag := c.hypertag + 1 }) rfl rfl ((h1.trans h2).trans h3)).trans h4)
  | .imports context path items, c => by
    simp only [Stmt.defines]
    cases context with
    | true =>
      simp only [analyse]
      split
      · refine (analyseImports_grows src path items c).bind ?_
        rintro ⟨s, c1⟩ h
        exact .pure h
      · exact .error
    | false =>
      simp only [analyse]
      split
      · exact .error
      · refine (analyseImports_grows src path items c).bind ?_
        rintro ⟨s, c1⟩ h
        exact .pure h
  | .tryBlock bs, c => by
    simp only [analyse, Stmt.defines]
    refine (analyseBranches_grows bs _).bind ?_
    rintro ⟨s, c1⟩ h
    exact .pure h.control_back
  | .ifBlock cs els, c => by
    simp only [analyse, Stmt.defines]
    refine (analyseClauses_grows cs _).bind ?_
    rintro ⟨s, c1⟩ h
    refine (analyseElse_grows els _).bind ?_
    rintro ⟨s, c2⟩ h'
    exact .pure (h.trans h').control_back
  | .elseClause b, c => by
    simp only [analyse, Stmt.defines]
    refine (analyseOpt_grows b _).bind ?_
    rintro ⟨s, c1⟩ h
    exact .pure h
  | .whileBlock _ b els, c => by
    simp only [analyse, Stmt.defines]
    refine (post_any _).bind (fun _ _ => (analyseOpt_grows b _).bind ?_)
    rintro ⟨s, c1⟩ h
    refine (analyseElse_grows els _).bind ?_
    rintro ⟨s, c2⟩ h'
    exact .pure (h.merge.trans h').control_back
  | .forBlock t _ rest, c => by
    simp only [analyse, Stmt.defines]
    refine (post_any _).bind (fun _ _ => (analyseTarget_grows t _).bind ?_)
    rintro ⟨s, c1⟩ h
    refine (analyseFirst_grows rest _).bind ?_
    rintro ⟨s, c2⟩ h'
    exact .pure (h.trans h').control_back
  | .exprBlock _, c => by simp only [analyse]; exact (post_any _).bind (fun _ _ => .pure (.refl _ c))
  | .assign t _ _, c => by
    simp only [analyse, Stmt.defines]
    refine (post_any _).bind (fun _ _ => (analyseTarget_grows t _).bind ?_)
    rintro ⟨s, c1⟩ h
    exact .pure h
  | .body ss, c => by
    simp only [analyse, Stmt.defines]
    refine (analyseAll_grows ss _).bind ?_
    rintro ⟨s, c1⟩ h
    exact .pure h
  | .pass, c => by simp only [analyse]; exact .pure (.refl _ c)
theorem analyseAll_grows : ∀ (ss : List (Stmt P)) (c : Ctx), Post (fun r => c.Grows (Stmt.definesAll src ss) r.2) (analyseAll src ss c)
  | [], c => by simp only [analyseAll]; exact .pure (.refl _ c)
  | s :: ss, c => by
    simp only [analyseAll, Stmt.definesAll]
    refine (analyse_grows s c).bind ?_
    rintro ⟨s, c1⟩ h
    refine (analyseAll_grows ss c1).bind ?_
    rintro ⟨s, c2⟩ h'
    exact .pure (h.trans h')
theorem analyseBranches_grows : ∀ (ss : List (Stmt P)) (c : Ctx), Post (fun r => c.Grows (Stmt.definesAll src ss) r.2) (analyseBranches src ss c)
  | [], c => by simp only [analyseBranches]; exact .pure (.refl _ c)
  | s :: ss, c => by
    simp only [analyseBranches, Stmt.definesAll]
    refine (analyse_grows s c).bind ?_
    rintro ⟨s, c1⟩ h
    refine (analyseBranches_grows ss _).bind ?_
    rintro ⟨s, c2⟩ h'
    exact .pure (h.merge.trans h')
theorem analyseClauses_grows : ∀ (cs : List (Expr × Option (Stmt P))) (c : Ctx), Post (fun r => c.Grows (Stmt.definesClauses src cs) r.2) (analyseClauses src cs c)
  | [], c => by simp only [analyseClauses]; exact .pure (.refl _ c)
  | s :: ss, c => by
    simp only [analyseClauses, Stmt.definesClauses]
    refine (analyseClause_grows s c).bind ?_
    rintro ⟨s, c1⟩ h
    refine (analyseClauses_grows ss _).bind ?_
    rintro ⟨s, c2⟩ h'
    exact .pure (h.merge.trans h')
theorem analyseClause_grows : ∀ (cl : Expr × Option (Stmt P)) (c : Ctx), Post (fun r => c.Grows (Stmt.definesClause src cl) r.2) (analyseClause src cl c)
  | (_, b), c => by
    simp only [analyseClause, Stmt.definesClause]
    refine (post_any _).bind (fun _ _ => (analyseOpt_grows b _).bind ?_)
    rintro ⟨s, c1⟩ h
    exact .pure h
theorem analyseElse_grows : ∀ (o : Option (Stmt P)) (c : Ctx), Post (fun r => c.Grows (Stmt.definesOpt src o) r.2) (analyseElse src o c)
  | none, c => by simp only [analyseElse]; exact .pure (.refl _ c)
  | some s, c => by
    simp only [analyseElse, Stmt.definesOpt]
    refine (analyse_grows s c).bind ?_
    rintro ⟨s, c1⟩ h
    exact .pure h.merge
theorem analyseOpt_grows : ∀ (o : Option (Stmt P)) (c : Ctx), Post (fun r => c.Grows (Stmt.definesOpt src o) r.2) (analyseOpt src o c)
  | none, c => by simp only [analyseOpt]; exact .pure (.refl _ c)
  | some s, c => by
    simp only [analyseOpt, Stmt.definesOpt]
    refine (analyse_grows s c).bind ?_
    rintro ⟨s, c1⟩ h
    exact .pure h
theorem analyseFirst_grows : ∀ (ss : List (Stmt P)) (c : Ctx), Post (fun r => c.Grows (Stmt.definesAll src ss) r.2) (analyseFirst src ss c)
  | [], c => by simp only [analyseFirst]; exact .pure (.refl _ c)
  | s :: ss, c => by
    simp only [analyseFirst, Stmt.definesAll]
    refine (analyse_grows s c).bind ?_
    rintro ⟨s, c1⟩ h
    exact .pure (h.mono (fun y hy => List.mem_append_left _ hy))
end

end
end Verif
