import Verif.Lemmas.Analyse

/-! Analysis of statements decides whether all symbols are in scope. -/

set_option linter.unusedSectionVars false

namespace Verif
open Py

section
variable {P I : Type}

section
variable {K L : Stmt P → Prop} (h : ∀ s, K s → L s)
include h

mutual
theorem Stmt.tails_mono : ∀ s : Stmt P, s.tails K → s.tails L
  | .xblock _ _ b, t => by simp only [Stmt.tails] at t ⊢; exact Stmt.tails_mono b t
  | .struct _ b, t => by simp only [Stmt.tails] at t ⊢; exact Stmt.tails_mono b t
  | .defn _ _ _ _ _ b, t => by simp only [Stmt.tails] at t ⊢; exact Stmt.tails_mono b t
  | .tryBlock bs, t => by simp only [Stmt.tails] at t ⊢; exact Stmt.tailsAll_mono bs t
  | .ifBlock cs els, t => by
    simp only [Stmt.tails] at t ⊢
    exact ⟨Stmt.tailsClauses_mono cs t.1, Stmt.tailsOpt_mono els t.2⟩
  | .elseClause b, t => by simp only [Stmt.tails] at t ⊢; exact Stmt.tailsOpt_mono b t
  | .whileBlock _ b els, t => by
    simp only [Stmt.tails] at t ⊢
    exact ⟨Stmt.tailsOpt_mono b t.1, Stmt.tailsOpt_mono els t.2⟩
  | .forBlock _ _ rest, t => by simp only [Stmt.tails] at t ⊢; exact Stmt.tailsFirst_mono rest t
  | .body ss, t => by simp only [Stmt.tails] at t ⊢; exact Stmt.tailsAll_mono ss t
  | .static _, _ => by simp only [Stmt.tails]
  | .indent _, _ => by simp only [Stmt.tails]
  | .dedent _, _ => by simp only [Stmt.tails]
  | .line _, _ => by simp only [Stmt.tails]
  | .text _ _, _ => by simp only [Stmt.tails]
  | .comment, _ => by simp only [Stmt.tails]
  | .embed _, _ => by simp only [Stmt.tails]
  | .imports _ _ _, _ => by simp only [Stmt.tails]
  | .exprBlock _, _ => by simp only [Stmt.tails]
  | .assign _ _ _, _ => by simp only [Stmt.tails]
  | .pass, _ => by simp only [Stmt.tails]
theorem Stmt.tailsAll_mono : ∀ s : List (Stmt P), Stmt.tailsAll K s → Stmt.tailsAll L s
  | [], _ => by simp only [Stmt.tailsAll]
  | s :: ss, t => by
    simp only [Stmt.tailsAll] at t ⊢
    exact ⟨Stmt.tails_mono s t.1, Stmt.tailsAll_mono ss t.2⟩
theorem Stmt.tailsOpt_mono : ∀ s : Option (Stmt P), Stmt.tailsOpt K s → Stmt.tailsOpt L s
  | .none, _ => by simp only [Stmt.tailsOpt]
  | some s, t => by simp only [Stmt.tailsOpt] at t ⊢; exact Stmt.tails_mono s t
theorem Stmt.tailsClause_mono : ∀ s : Expr × Option (Stmt P), Stmt.tailsClause K s →
    Stmt.tailsClause L s
  | (_, b), t => by simp only [Stmt.tailsClause] at t ⊢; exact Stmt.tailsOpt_mono b t
theorem Stmt.tailsClauses_mono : ∀ s : List (Expr × Option (Stmt P)), Stmt.tailsClauses K s →
    Stmt.tailsClauses L s
  | [], _ => by simp only [Stmt.tailsClauses]
  | s :: ss, t => by
    simp only [Stmt.tailsClauses] at t ⊢
    exact ⟨Stmt.tailsClause_mono s t.1, Stmt.tailsClauses_mono ss t.2⟩
theorem Stmt.tailsFirst_mono : ∀ s : List (Stmt P), Stmt.tailsFirst K s → Stmt.tailsFirst L s
  | [], _ => by simp only [Stmt.tailsFirst]
  | s :: ss, t => by
    simp only [Stmt.tailsFirst] at t ⊢
    exact ⟨Stmt.tails_mono s t.1, fun u hu => h u (t.2 u hu)⟩
end
end

/-- Bindings do not change. -/
theorem Adds.of_binds {c c' : Ctx} (h : c'.binds = c.binds) : Adds c c' [] := fun x => by simp [h]

theorem map_attr_names {as bs : List AttrDef} (h : as.map (·.name) = bs.map (·.name)) :
    as.map (fun a => '$' :: a.name) = bs.map (fun a => '$' :: a.name) := by
  have := congrArg (List.map ('$' :: ·)) h
  rw [List.map_map, List.map_map] at this
  exact this

theorem found_any : Found (fun _ => True) := fun _ => trivial

private theorem no : False → ∀ _ : Option Slot, True := fun _ _ => trivial

variable (src : Source P I)

mutual
theorem analyse_names : ∀ (s : Stmt P) (c : Ctx) (S : List Str), SameNames S c.binds → c.WF →
    s.tails (Raw False) →
    Judge (s.scoped src S) (fun r => Adds c r.2 (s.defines src)) (analyse src s c)
  | .static _, c, _, _, _, _ => by
    simp only [analyse, Stmt.scoped, Stmt.defines]; exact .pure trivial (.nil c)
  | .indent _, c, _, _, _, _ => by
    simp only [analyse, Stmt.scoped, Stmt.defines]; exact .pure trivial (.nil c)
  | .dedent _, c, _, _, _, _ => by
    simp only [analyse, Stmt.scoped, Stmt.defines]; exact .pure trivial (.nil c)
  | .comment, c, _, _, _, _ => by
    simp only [analyse, Stmt.scoped, Stmt.defines]; exact .pure trivial (.nil c)
  | .pass, c, _, _, _, _ => by
    simp only [analyse, Stmt.scoped, Stmt.defines]; exact .pure trivial (.nil c)
  | .line l, c, S, hS, _, _ => by
    simp only [analyse, Stmt.scoped, Stmt.defines]
    exact (analyseLine_judge hS found_any l).map (fun _ _ => .pure trivial (.nil c))
  | .text _ items, c, S, hS, _, _ => by
    simp only [analyse, Stmt.scoped, Stmt.defines]
    exact (analyseItems_judge hS found_any items).map (fun _ _ => .pure trivial (.nil c))
  | .embed e, c, S, hS, _, _ => by
    simp only [analyse, Stmt.scoped, Stmt.defines]
    exact (analyseExpr_judge hS found_any e).map (fun _ _ => .pure trivial (.nil c))
  | .exprBlock e, c, S, hS, _, _ => by
    simp only [analyse, Stmt.scoped, Stmt.defines]
    exact (analyseExpr_judge hS found_any e).map (fun _ _ => .pure trivial (.nil c))
  | .xblock _ _ b, c, S, hS, w, t => by
    simp only [analyse, Stmt.scoped, Stmt.defines]
    simp only [Stmt.tails] at t
    obtain ⟨e1, e2, e3, e4, e5⟩ := leaveProlog_eq b c
    have w' : (leaveProlog b c).WF := by intro x hx; rw [e1] at hx; rw [e2, e5]; exact w x hx
    refine (analyse_names b _ S (by rw [e1]; exact hS) w' t).map ?_
    rintro ⟨b', c1⟩ h
    refine .pure trivial ?_
    intro x
    have := h x
    rw [e1] at this
    exact this
  | .struct tags b, c, S, hS, w, t => by
    simp only [analyse, Stmt.scoped, Stmt.defines]
    simp only [Stmt.tails] at t
    have w' : Ctx.WF { c with regular := c.regular + 1 } := fun x hx =>
      ⟨Nat.le_succ_of_le (w x hx).1, (w x hx).2⟩
    refine (analyseTags_judge hS found_any tags).bind (fun _ _ =>
      ((analyse_names b { c with regular := c.regular + 1 } S hS w' t).and_post
        (analyse_post src found_any no b _ w' t)).map ?_)
    rintro ⟨b', c1⟩ ⟨_, h, _⟩
    exact .pure trivial (.of_binds
      (Ctx.leave_binds (c1 := { c with regular := c.regular + 1 }) rfl h))
  | .defn id name _ ba as b, c, S, hS, w, t => by
    simp only [analyse, Stmt.scoped, Stmt.defines]
    simp only [Stmt.tails] at t
    split
    · exact .error (fun h => h.elim)
    · have w' : Ctx.WF { c with regular := c.regular + 1, hypertag := c.hypertag + 1 } := fun x hx =>
        ⟨Nat.le_succ_of_le (w x hx).1, (w x hx).2⟩
      refine Judge.iff (A := (∀ a ∈ ba.toList, Expr.usesOpt (· ∈ S) a.default) ∧
        (∀ a ∈ as, Expr.usesOpt (· ∈ S) a.default) ∧ b.scoped src (S ++ attrNames ba as))
        (by rw [← and_assoc, List.forall_mem_append]) ?_
      refine (analyseDefaults_judge hS found_any ba.toList).bind (fun ba1 hba =>
        (analyseDefaults_judge hS found_any as).bind (fun as1 has => ?_))
      refine (Judge.bind (declareAttrs_judge ba1 hba.1 _) (B := b.scoped src (S ++ attrNames ba as))
        ?_).iff (by simp)
      rintro ⟨ba2, c2⟩ ⟨b1, b2, _⟩
      refine (Judge.bind (declareAttrs_judge as1 has.1 c2) (B := b.scoped src (S ++ attrNames ba as))
        ?_).iff (by simp)
      rintro ⟨as2, c3⟩ ⟨a1, a2, _⟩
      have hS3 : SameNames (S ++ attrNames ba as) c3.binds := by
        have := (b2.trans a2).same hS
        rw [map_attr_names hba.2, map_attr_names has.2] at this
        simpa only [attrNames, List.map_append] using this
      have w3 := a1.wf (b1.wf w')
      refine ((analyse_names b c3 _ hS3 w3 t).and_post
        (analyse_post src found_any no b c3 w3 t)).map ?_
      rintro ⟨b', c4⟩ ⟨_, h, _⟩
      have hlb : (c.leave c4).binds = c.binds := Ctx.leave_binds
        (c1 := { c with regular := c.regular + 1, hypertag := c.hypertag + 1 }) rfl
        ((b1.trans a1).trans h)
      refine (newSlot_judge (c.leave c4) _).map ?_
      rintro ⟨sl, c5⟩ ⟨k1, k2, _⟩
      exact .pure trivial ((Adds.of_binds hlb).trans k2)
  | .imports true path items, c, _, _, _, _ => by
    simp only [analyse, Stmt.scoped, Stmt.defines]
    split
    · exact (analyseImports_judge src path items c False).map (fun _ h => .pure trivial h.2.1)
    · exact .error (fun h => h.elim)
  | .imports false path items, c, _, _, _, _ => by
    simp only [analyse, Stmt.scoped, Stmt.defines]
    split
    · exact .error (fun h => h.elim)
    · exact (analyseImports_judge src path items c False).map (fun _ h => .pure trivial h.2.1)
  | .tryBlock bs, c, S, hS, w, t => by
    simp only [analyse, Stmt.scoped, Stmt.defines]
    simp only [Stmt.tails] at t
    exact (analyseBranches_names bs { c with control := c.control + 1 } S hS w t).map
      (fun _ h => .pure trivial h)
  | .ifBlock cs els, c, S, hS, w, t => by
    simp only [analyse, Stmt.scoped, Stmt.defines]
    simp only [Stmt.tails] at t
    refine ((analyseClauses_names cs { c with control := c.control + 1 } S hS w t.1).and_post
      (analyseClauses_post src found_any no cs _ w t.1)).bind ?_
    rintro ⟨cs', c1⟩ ⟨h1, h2, _⟩
    exact (analyseElse_names els c1 _ (h1.same hS) (h2.wf w) t.2).map
      (fun _ h => .pure trivial (h1.trans h))
  | .elseClause b, c, S, hS, w, t => by
    simp only [analyse, Stmt.scoped, Stmt.defines]
    simp only [Stmt.tails] at t
    exact (analyseOpt_names b c S hS w t).map (fun _ h => .pure trivial h)
  | .whileBlock e b els, c, S, hS, w, t => by
    simp only [analyse, Stmt.scoped, Stmt.defines]
    simp only [Stmt.tails] at t
    refine (analyseExpr_judge hS found_any e).bind (fun _ _ =>
      ((analyseOpt_names b { c with control := c.control + 1 } S hS w t.1).and_post
        (analyseOpt_post src found_any no b _ w t.1)).bind ?_)
    rintro ⟨b', c1⟩ ⟨h1, h2, _⟩
    have hm := Ctx.merge_adds h2 h1
    exact (analyseElse_names els _ _ (hm.same hS) ((Ctx.merge_step h2).wf w) t.2).map
      (fun _ h => .pure trivial (hm.trans h))
  | .forBlock tg e rest, c, S, hS, w, t => by
    simp only [analyse, Stmt.scoped, Stmt.defines]
    simp only [Stmt.tails] at t
    refine (analyseExpr_judge hS found_any e).bind (fun _ _ =>
      (analyseTarget_judge (N := False) found_any tg { c with control := c.control + 1 } S hS).bind ?_)
    rintro ⟨tg', c1⟩ ⟨h1, h2, _⟩
    exact (analyseFirst_names rest c1 _ (h2.same hS) (h1.wf w) t).map
      (fun _ h => .pure trivial (h2.trans h))
  | .assign tg op e, c, S, hS, _, _ => by
    simp only [analyse, Stmt.scoped, Stmt.defines]
    refine (analyseExpr_judge hS found_any e).bind (fun _ _ =>
      (analyseTarget_judge (N := False) found_any tg c S hS).map ?_)
    rintro ⟨tg', c1⟩ ⟨_, h2, _⟩
    exact .pure trivial h2
  | .body ss, c, S, hS, w, t => by
    simp only [analyse, Stmt.scoped, Stmt.defines]
    simp only [Stmt.tails] at t
    exact (analyseAll_names ss c S hS w t).map (fun _ h => .pure trivial h)
theorem analyseAll_names : ∀ (ss : List (Stmt P)) (c : Ctx) (S : List Str), SameNames S c.binds →
    c.WF → Stmt.tailsAll (Raw False) ss →
    Judge (Stmt.scopedAll src S ss) (fun r => Adds c r.2 (Stmt.definesAll src ss))
      (analyseAll src ss c)
  | [], c, _, _, _, _ => by
    simp only [analyseAll, Stmt.scopedAll, Stmt.definesAll]
    exact .pure trivial (.nil c)
  | s :: ss, c, S, hS, w, t => by
    simp only [analyseAll, Stmt.scopedAll, Stmt.definesAll]
    simp only [Stmt.tailsAll] at t
    refine ((analyse_names s c S hS w t.1).and_post (analyse_post src found_any no s c w t.1)).bind ?_
    rintro ⟨s', c1⟩ ⟨h1, h2, _⟩
    exact (analyseAll_names ss c1 _ (h1.same hS) (h2.wf w) t.2).map
      (fun _ h => .pure trivial (h1.trans h))
theorem analyseBranches_names : ∀ (ss : List (Stmt P)) (c : Ctx) (S : List Str),
    SameNames S c.binds → c.WF → Stmt.tailsAll (Raw False) ss →
    Judge (Stmt.scopedAll src S ss) (fun r => Adds c r.2 (Stmt.definesAll src ss))
      (analyseBranches src ss c)
  | [], c, _, _, _, _ => by
    simp only [analyseBranches, Stmt.scopedAll, Stmt.definesAll]
    exact .pure trivial (.nil c)
  | s :: ss, c, S, hS, w, t => by
    simp only [analyseBranches, Stmt.scopedAll, Stmt.definesAll]
    simp only [Stmt.tailsAll] at t
    refine ((analyse_names s c S hS w t.1).and_post (analyse_post src found_any no s c w t.1)).bind ?_
    rintro ⟨s', c1⟩ ⟨h1, h2, _⟩
    have hm := Ctx.merge_adds h2 h1
    exact (analyseBranches_names ss _ _ (hm.same hS) ((Ctx.merge_step h2).wf w) t.2).map
      (fun _ h => .pure trivial (hm.trans h))
theorem analyseClauses_names : ∀ (ss : List (Expr × Option (Stmt P))) (c : Ctx) (S : List Str),
    SameNames S c.binds → c.WF → Stmt.tailsClauses (Raw False) ss →
    Judge (Stmt.scopedClauses src S ss) (fun r => Adds c r.2 (Stmt.definesClauses src ss))
      (analyseClauses src ss c)
  | [], c, _, _, _, _ => by
    simp only [analyseClauses, Stmt.scopedClauses, Stmt.definesClauses]
    exact .pure trivial (.nil c)
  | s :: ss, c, S, hS, w, t => by
    simp only [analyseClauses, Stmt.scopedClauses, Stmt.definesClauses]
    simp only [Stmt.tailsClauses] at t
    refine ((analyseClause_names s c S hS w t.1).and_post
      (analyseClause_post src found_any no s c w t.1)).bind ?_
    rintro ⟨s', c1⟩ ⟨h1, h2, _⟩
    have hm := Ctx.merge_adds h2 h1
    exact (analyseClauses_names ss _ _ (hm.same hS) ((Ctx.merge_step h2).wf w) t.2).map
      (fun _ h => .pure trivial (hm.trans h))
theorem analyseClause_names : ∀ (s : Expr × Option (Stmt P)) (c : Ctx) (S : List Str),
    SameNames S c.binds → c.WF → Stmt.tailsClause (Raw False) s →
    Judge (Stmt.scopedClause src S s) (fun r => Adds c r.2 (Stmt.definesClause src s))
      (analyseClause src s c)
  | (e, b), c, S, hS, w, t => by
    simp only [analyseClause, Stmt.scopedClause, Stmt.definesClause]
    simp only [Stmt.tailsClause] at t
    exact (analyseExpr_judge hS found_any e).bind (fun _ _ =>
      (analyseOpt_names b c S hS w t).map (fun _ h => .pure trivial h))
theorem analyseElse_names : ∀ (o : Option (Stmt P)) (c : Ctx) (S : List Str),
    SameNames S c.binds → c.WF → Stmt.tailsOpt (Raw False) o →
    Judge (Stmt.scopedOpt src S o) (fun r => Adds c r.2 (Stmt.definesOpt src o))
      (analyseElse src o c)
  | .none, c, _, _, _, _ => by
    simp only [analyseElse, Stmt.scopedOpt, Stmt.definesOpt]
    exact .pure trivial (.nil c)
  | some s, c, S, hS, w, t => by
    simp only [analyseElse, Stmt.scopedOpt, Stmt.definesOpt]
    simp only [Stmt.tailsOpt] at t
    refine ((analyse_names s c S hS w t).and_post (analyse_post src found_any no s c w t)).map ?_
    rintro ⟨s', c1⟩ ⟨h1, h2, _⟩
    exact .pure trivial (Ctx.merge_adds h2 h1)
theorem analyseOpt_names : ∀ (o : Option (Stmt P)) (c : Ctx) (S : List Str),
    SameNames S c.binds → c.WF → Stmt.tailsOpt (Raw False) o →
    Judge (Stmt.scopedOpt src S o) (fun r => Adds c r.2 (Stmt.definesOpt src o))
      (analyseOpt src o c)
  | .none, c, _, _, _, _ => by
    simp only [analyseOpt, Stmt.scopedOpt, Stmt.definesOpt]
    exact .pure trivial (.nil c)
  | some s, c, S, hS, w, t => by
    simp only [analyseOpt, Stmt.scopedOpt, Stmt.definesOpt]
    simp only [Stmt.tailsOpt] at t
    exact (analyse_names s c S hS w t).map (fun _ h => .pure trivial h)
theorem analyseFirst_names : ∀ (ss : List (Stmt P)) (c : Ctx) (S : List Str),
    SameNames S c.binds → c.WF → Stmt.tailsFirst (Raw False) ss →
    Judge (Stmt.scopedAll src S ss) (fun r => Adds c r.2 (Stmt.definesAll src ss))
      (analyseFirst src ss c)
  | [], c, _, _, _, _ => by
    simp only [analyseFirst, Stmt.scopedAll, Stmt.definesAll]
    exact .pure trivial (.nil c)
  | [s], c, S, hS, w, t => by
    simp only [analyseFirst, Stmt.scopedAll, Stmt.definesAll, and_true, List.append_nil]
    simp only [Stmt.tailsFirst] at t
    exact (analyse_names s c S hS w t.1).map (fun _ h => .pure trivial h)
  | _ :: u :: _, c, S, hS, w, t => by
    simp only [Stmt.tailsFirst] at t
    exact (t.2 u (by simp)).1.elim
end

end
end Verif
