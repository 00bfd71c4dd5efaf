import Verif.Lemmas.AnalyseParts

/-! Analysis of statements: which slots are read and written in the resulting tree. -/

set_option linter.unusedSectionVars false

namespace Verif
open Py

section
variable {P I : Type}

/-- A statement that was not analysed: it has no slots, as created by the parser. Allowed only if `N`. -/
def Raw (N : Prop) (s : Stmt P) : Prop :=
  N ∧ s.writes (· = none) ∧ ∀ d ∈ s.defs, d.2.writes (· = none)

/-- Slots of the hypertags defined in a tree. -/
def Defs (N : Prop) (q : Option Slot → Prop) (c c' : Ctx) (ds : List (DefId × DefInfo P)) : Prop :=
  ∀ d ∈ ds, d.2.writes (c.H N c') ∧ d.2.reads q

/-- Slots of an analysed tree. -/
def Tree' (N : Prop) (q : Option Slot → Prop) (c c' : Ctx) (s : Stmt P) : Prop :=
  s.writes (c.W N c') ∧ s.reads q ∧ Defs N q c c' s.defs

def TreeAll (N : Prop) (q : Option Slot → Prop) (c c' : Ctx) (ss : List (Stmt P)) : Prop :=
  Stmt.writesAll (c.W N c') ss ∧ Stmt.readsAll q ss ∧ Defs N q c c' (Stmt.defsAll ss)

def TreeOpt (N : Prop) (q : Option Slot → Prop) (c c' : Ctx) (o : Option (Stmt P)) : Prop :=
  Stmt.writesOpt (c.W N c') o ∧ Stmt.readsOpt q o ∧ Defs N q c c' (Stmt.defsOpt o)

def TreeClause (N : Prop) (q : Option Slot → Prop) (c c' : Ctx) (o : Expr × Option (Stmt P)) : Prop :=
  Stmt.writesClause (c.W N c') o ∧ Stmt.readsClause q o ∧ Defs N q c c' (Stmt.defsClause o)

def TreeClauses (N : Prop) (q : Option Slot → Prop) (c c' : Ctx) (o : List (Expr × Option (Stmt P))) :
    Prop :=
  Stmt.writesClauses (c.W N c') o ∧ Stmt.readsClauses q o ∧ Defs N q c c' (Stmt.defsClauses o)

section
variable {N : Prop} {q : Option Slot → Prop} {c1 c2 c c' : Ctx}

theorem Defs.mono (hH : ∀ o, c1.H N c2 o → c.H N c' o) {ds : List (DefId × DefInfo P)}
    (h : Defs N q c1 c2 ds) : Defs N q c c' ds :=
  fun d hd => ⟨DefInfo.writes_mono hH (h d hd).1, (h d hd).2⟩

theorem Defs.append {a b : List (DefId × DefInfo P)} (h1 : Defs N q c c' a) (h2 : Defs N q c c' b) :
    Defs N q c c' (a ++ b) :=
  fun d hd => (List.mem_append.1 hd).elim (h1 d) (h2 d)

theorem Defs.nil : Defs N q c c' ([] : List (DefId × DefInfo P)) := fun _ hd => by simp at hd

variable (hW : ∀ o, c1.W N c2 o → c.W N c' o) (hH : ∀ o, c1.H N c2 o → c.H N c' o)
include hW hH

theorem Tree'.mono {s : Stmt P} (h : Tree' N q c1 c2 s) : Tree' N q c c' s :=
  ⟨Stmt.writes_mono hW _ h.1, h.2.1, h.2.2.mono hH⟩
theorem TreeAll.mono {s : List (Stmt P)} (h : TreeAll N q c1 c2 s) : TreeAll N q c c' s :=
  ⟨Stmt.writesAll_mono hW _ h.1, h.2.1, h.2.2.mono hH⟩
theorem TreeOpt.mono {s : Option (Stmt P)} (h : TreeOpt N q c1 c2 s) : TreeOpt N q c c' s :=
  ⟨Stmt.writesOpt_mono hW _ h.1, h.2.1, h.2.2.mono hH⟩
theorem TreeClause.mono {s : Expr × Option (Stmt P)} (h : TreeClause N q c1 c2 s) :
    TreeClause N q c c' s :=
  ⟨Stmt.writesClause_mono hW _ h.1, h.2.1, h.2.2.mono hH⟩
theorem TreeClauses.mono {s : List (Expr × Option (Stmt P))} (h : TreeClauses N q c1 c2 s) :
    TreeClauses N q c c' s :=
  ⟨Stmt.writesClauses_mono hW _ h.1, h.2.1, h.2.2.mono hH⟩

end

theorem sameNames_self (c : Ctx) : SameNames (c.binds.map Prod.fst) c.binds := fun _ => Iff.rfl

theorem leaveProlog_eq (b : Stmt P) (c : Ctx) : (leaveProlog b c).binds = c.binds ∧
    (leaveProlog b c).regular = c.regular ∧ (leaveProlog b c).control = c.control ∧
    (leaveProlog b c).hypertag = c.hypertag ∧ (leaveProlog b c).next = c.next := by
  unfold leaveProlog
  split <;> exact ⟨rfl, rfl, rfl, rfl, rfl⟩

theorem Ctx.Step.of_eq {c1 c c' : Ctx} (hb : c1.binds = c.binds) (hr : c1.regular = c.regular)
    (hc : c1.control = c.control) (hh : c1.hypertag = c.hypertag) (hn : c1.next = c.next)
    (h : c1.Step c') : c.Step c' :=
  ⟨h.regular.trans hr, h.control.trans hc, h.hypertag.trans hh, hn ▸ h.next, by
    rw [← hb, ← hr, ← hn]; exact h.binds⟩

theorem Ctx.W.of_eq {N : Prop} {c1 c c' : Ctx} (hb : c1.binds = c.binds) (hr : c1.regular = c.regular)
    (hn : c1.next = c.next) (o) (w : c1.W N c' o) : c.W N c' o := by
  unfold Ctx.W Ctx.Own at *
  rw [← hb, ← hr, ← hn]
  exact w

theorem Ctx.H.of_eq {N : Prop} {c1 c c' : Ctx} (hn : c1.next = c.next) (o) (w : c1.H N c' o) :
    c.H N c' o := by
  unfold Ctx.H at *
  rw [← hn]
  exact w

/-- In a new namespace, only new slots are written. -/
theorem Ctx.W.fresh {N : Prop} {c c1 c' : Ctx} (w : c.WF) (hs : Ctx.Step { c with
    regular := c.regular + 1, hypertag := c1.hypertag } c1) {o} (h : c1.W N c' o)
    (hn : c1.next ≤ c'.next) :
    (N ∧ o = none) ∨ ∃ sl, o = some sl ∧ c.next ≤ sl ∧ sl < c'.next := by
  rcases h with h | ⟨sl, rfl, h | h⟩
  · exact .inl h
  · refine .inr ⟨sl, rfl, ?_⟩
    obtain ⟨b, hb, hi, hd⟩ := h
    rcases hs.mem hb with hb | hb
    · have h1 := (w b hb).1
      have h2 : c1.regular = c.regular + 1 := hs.regular
      omega
    · exact hi ▸ ⟨hb.2.1, Nat.lt_of_lt_of_le hb.2.2 hn⟩
  · exact .inr ⟨sl, rfl, Nat.le_trans hs.next h.1, h.2⟩

section
variable (src : Source P I) {q : Option Slot → Prop} (hq : Found q) {N : Prop} (hN : N → ∀ o, q o)
include hq hN

/-- Clauses that were not analysed. -/
theorem raw_all {ss : List (Stmt P)} (h : ∀ s ∈ ss, Raw N s) (c c' : Ctx) : TreeAll N q c c' ss := by
  refine ⟨?_, ?_, ?_⟩
  · rw [Stmt.writesAll_iff]
    exact fun s hs => Stmt.writes_mono (fun o ho => .inl ⟨(h s hs).1, ho⟩) _ (h s hs).2.1
  · rw [Stmt.readsAll_iff]
    exact fun s hs => Stmt.reads_of (hN (h s hs).1) s
  · intro d hd
    obtain ⟨s, hs, hd⟩ := (Stmt.mem_defsAll ss d).1 hd
    exact ⟨DefInfo.writes_mono (fun o ho => .inl ⟨(h s hs).1, ho⟩) ((h s hs).2.2 d hd),
      DefInfo.reads_of (hN (h s hs).1) _⟩

/-- One step of the branches of a control block. -/
theorem merge_mono {c c1 c2 : Ctx} (h1 : c.Step c1) (h2 : (c.mergeBranch c1).Step c2) :
    (∀ o, c.W N c1 o → c.W N c2 o) ∧ (∀ o, c.H N c1 o → c.H N c2 o) ∧
    (∀ o, (c.mergeBranch c1).W N c2 o → c.W N c2 o) ∧
    (∀ o, (c.mergeBranch c1).H N c2 o → c.H N c2 o) := by
  have hm := Ctx.merge_step h1
  have hn : c1.next ≤ c2.next := by have := h2.next; rwa [Ctx.merge_next] at this
  exact ⟨fun o => .right hn, fun o h => .right h2 (.sub (Nat.le_of_eq Ctx.merge_next.symm)
    (Ctx.merge_sub h1) h), fun o => .left hm h2.next, fun o => .left hm.next⟩

mutual
theorem analyse_post : ∀ (s : Stmt P) (c : Ctx), c.WF → s.tails (Raw N) →
    Post (fun r => c.Step r.2 ∧ Tree' N q c r.2 r.1) (analyse src s c)
  | .static _, c, _, _ => by
    simp only [analyse]
    exact .pure ⟨.refl c, by simp only [Stmt.writes], by simp only [Stmt.reads], .nil⟩
  | .indent _, c, _, _ => by
    simp only [analyse]
    exact .pure ⟨.refl c, by simp only [Stmt.writes], by simp only [Stmt.reads], .nil⟩
  | .dedent _, c, _, _ => by
    simp only [analyse]
    exact .pure ⟨.refl c, by simp only [Stmt.writes], by simp only [Stmt.reads], .nil⟩
  | .line l, c, _, _ => by
    simp only [analyse]
    exact (analyseLine_judge (sameNames_self c) hq l).post.bind (fun l' h => .pure
      ⟨.refl c, by simp only [Stmt.writes], by simp only [Stmt.reads]; exact h, .nil⟩)
  | .xblock m mo b, c, w, t => by
    simp only [analyse]
    simp only [Stmt.tails] at t
    obtain ⟨e1, e2, e3, e4, e5⟩ := leaveProlog_eq b c
    have w' : (leaveProlog b c).WF := by intro x hx; rw [e1] at hx; rw [e2, e5]; exact w x hx
    refine (analyse_post b _ w' t).bind ?_
    rintro ⟨b', c1⟩ ⟨h1, h2⟩
    have h2 := h2.mono (.of_eq e1 e2 e5) (.of_eq e5)
    refine .pure ⟨.of_eq e1 e2 e3 e4 e5 h1, ?_, ?_, ?_⟩
    · simp only [Stmt.writes]; exact h2.1
    · simp only [Stmt.reads]; exact h2.2.1
    · simp only [Stmt.defs]; exact h2.2.2
  | .text _ items, c, _, _ => by
    simp only [analyse]
    exact (analyseItems_judge (sameNames_self c) hq items).post.bind (fun l' h => .pure
      ⟨.refl c, by simp only [Stmt.writes], by simp only [Stmt.reads]; exact h, .nil⟩)
  | .comment, c, _, _ => by
    simp only [analyse]
    exact .pure ⟨.refl c, by simp only [Stmt.writes], by simp only [Stmt.reads], .nil⟩
  | .embed e, c, _, _ => by
    simp only [analyse]
    exact (analyseExpr_judge (sameNames_self c) hq e).post.bind (fun l' h => .pure
      ⟨.refl c, by simp only [Stmt.writes], by simp only [Stmt.reads]; exact h, .nil⟩)
  | .struct tags b, c, w, t => by
    simp only [analyse]
    simp only [Stmt.tails] at t
    have w' : Ctx.WF { c with regular := c.regular + 1 } := fun x hx =>
      ⟨Nat.le_succ_of_le (w x hx).1, (w x hx).2⟩
    refine (analyseTags_judge (sameNames_self c) hq tags).post.bind (fun tags' ht =>
      (analyse_post b _ w' t).bind ?_)
    rintro ⟨b', c1⟩ ⟨h1, h2⟩
    have hl : c.Step (c.leave c1) := Ctx.leave_step (c1 := { c with regular := c.regular + 1 }) rfl rfl
      rfl h1
    have h2 := h2.mono (c := c) (c' := c.leave c1)
      (fun o ho => (Ctx.W.fresh (c1 := { c with regular := c.regular + 1 }) w (.refl _) ho h1.next).elim
        .inl (fun ⟨sl, e, f⟩ => .inr ⟨sl, e, .inr f⟩))
      (fun o ho => .sub (c1 := c1) (c2 := c.leave c1) (Nat.le_refl _)
        (fun x hx => List.mem_of_mem_take hx) ho)
    refine .pure ⟨hl, ?_, ?_, ?_⟩
    · simp only [Stmt.writes]; exact h2.1
    · simp only [Stmt.reads]; exact ⟨ht, h2.2.1⟩
    · simp only [Stmt.defs]; exact h2.2.2
  | .defn id name _ ba as b, c, w, t => by
    simp only [analyse]
    simp only [Stmt.tails] at t
    split
    · exact .error
    · have w' : Ctx.WF { c with regular := c.regular + 1, hypertag := c.hypertag + 1 } := fun x hx =>
        ⟨Nat.le_succ_of_le (w x hx).1, (w x hx).2⟩
      refine (analyseDefaults_judge (sameNames_self c) hq ba.toList).post.bind (fun ba1 hba =>
        (analyseDefaults_judge (sameNames_self c) hq as).post.bind (fun as1 has =>
          (declareAttrs_judge ba1 hba.1 _).post.bind ?_))
      rintro ⟨ba2, c2⟩ ⟨b1, b2, b3, b4⟩
      refine (declareAttrs_judge as1 has.1 c2).post.bind ?_
      rintro ⟨as2, c3⟩ ⟨a1, a2, a3, a4⟩
      refine (analyse_post b c3 (a1.wf (b1.wf w')) t).bind ?_
      rintro ⟨b', c4⟩ ⟨h1, h2⟩
      have s3 := b1.trans a1
      have s4 := s3.trans h1
      have hl : c.Step (c.leave c4) := Ctx.leave_step
        (c1 := { c with regular := c.regular + 1, hypertag := c.hypertag + 1 }) rfl rfl rfl s4
      have hlb : (c.leave c4).binds = c.binds := Ctx.leave_binds
        (c1 := { c with regular := c.regular + 1, hypertag := c.hypertag + 1 }) rfl s4
      refine (newSlot_judge (c.leave c4) _).post.bind ?_
      rintro ⟨sl, c5⟩ ⟨k1, k2, k3, k4⟩
      have key : ∀ sl, c.next ≤ sl → sl < c4.next → c.H N c5 (some sl) := by
        intro sl f g
        refine .right k1 (.inr ⟨sl, rfl, f, g, fun x hx => ?_⟩)
        rw [hlb] at hx
        exact Nat.ne_of_lt (Nat.lt_of_lt_of_le (w x hx).2 f)
      have hs3 : Ctx.Step { c with regular := c.regular + 1, hypertag := c3.hypertag } c3 := by
        have := s3.hypertag
        exact .of_eq (c1 := { c with regular := c.regular + 1, hypertag := c.hypertag + 1 })
          rfl rfl rfl this.symm rfl s3
      refine .pure ⟨hl.trans k1, ?_, ?_, ?_⟩
      · simp only [Stmt.writes]
        exact .inr ⟨_, rfl, .inr ⟨Nat.le_trans hl.next k3, k4⟩⟩
      · simp only [Stmt.reads]
      · simp only [Stmt.defs]
        intro d hd
        rcases List.mem_cons.1 hd with rfl | hd
        · refine ⟨⟨?_, ?_, ?_⟩, ?_, ?_⟩
          · intro a ha
            obtain ⟨⟨sl', e, f, g⟩, _⟩ := b3 a (List.mem_of_mem_head? ha)
            rw [e]
            exact key sl' f (Nat.lt_of_lt_of_le g (Nat.le_trans a1.next h1.next))
          · intro a ha
            obtain ⟨⟨sl', e, f, g⟩, _⟩ := a3 a ha
            rw [e]
            exact key sl' (Nat.le_trans b1.next f) (Nat.lt_of_lt_of_le g h1.next)
          · refine Stmt.writes_mono (fun o ho => ?_) _ h2.1
            rcases Ctx.W.fresh (c1 := c3) w hs3 ho h1.next with ho | ⟨sl', rfl, f, g⟩
            · exact .inl ho
            · exact key sl' f g
          · exact fun a ha => (a3 a ha).2
          · exact h2.2.1
        · refine (h2.2.2.mono (c := c) (c' := c5) ?_) d hd
          intro o ho
          exact .right k1 (.sub (c1 := c4) (c2 := c.leave c4) (Nat.le_refl _)
            (fun x hx => List.mem_of_mem_take hx) (.left (Nat.le_trans b1.next a1.next) ho))
  | .imports true path items, c, _, _ => by
    simp only [analyse]
    split
    · refine (analyseImports_judge src path items c N).post.bind ?_
      rintro ⟨items', c1⟩ ⟨h1, h2, h3⟩
      exact .pure ⟨h1, by simp only [Stmt.writes]; exact h3, by simp only [Stmt.reads], .nil⟩
    · exact .error
  | .imports false path items, c, _, _ => by
    simp only [analyse]
    split
    · exact .error
    · refine (analyseImports_judge src path items c N).post.bind ?_
      rintro ⟨items', c1⟩ ⟨h1, h2, h3⟩
      exact .pure ⟨h1, by simp only [Stmt.writes]; exact h3, by simp only [Stmt.reads], .nil⟩
  | .tryBlock bs, c, w, t => by
    simp only [analyse]
    simp only [Stmt.tails] at t
    refine (analyseBranches_post bs { c with control := c.control + 1 } w t).bind ?_
    rintro ⟨bs', c1⟩ ⟨h1, h2⟩
    refine .pure ⟨⟨h1.regular, rfl, h1.hypertag, h1.next, h1.binds⟩, ?_, ?_, ?_⟩
    · simp only [Stmt.writes]; exact h2.1
    · simp only [Stmt.reads]; exact h2.2.1
    · simp only [Stmt.defs]; exact h2.2.2
  | .ifBlock cs els, c, w, t => by
    simp only [analyse]
    simp only [Stmt.tails] at t
    refine (analyseClauses_post cs { c with control := c.control + 1 } w t.1).bind ?_
    rintro ⟨cs', c1⟩ ⟨h1, h2⟩
    refine (analyseElse_post els c1 (h1.wf w) t.2).bind ?_
    rintro ⟨els', c2⟩ ⟨k1, k2⟩
    have h := h1.trans k1
    have h2 := h2.mono (fun o => .right k1.next) (fun o => .right k1)
    have k2 := k2.mono (fun o => .left h1 k1.next) (fun o => .left h1.next)
    refine .pure ⟨⟨h.regular, rfl, h.hypertag, h.next, h.binds⟩, ?_, ?_, ?_⟩
    · simp only [Stmt.writes]; exact ⟨h2.1, k2.1⟩
    · simp only [Stmt.reads]; exact ⟨h2.2.1, k2.2.1⟩
    · simp only [Stmt.defs]; exact h2.2.2.append k2.2.2
  | .elseClause b, c, w, t => by
    simp only [analyse]
    simp only [Stmt.tails] at t
    refine (analyseOpt_post b c w t).bind ?_
    rintro ⟨b', c1⟩ ⟨h1, h2⟩
    refine .pure ⟨h1, ?_, ?_, ?_⟩
    · simp only [Stmt.writes]; exact h2.1
    · simp only [Stmt.reads]; exact h2.2.1
    · simp only [Stmt.defs]; exact h2.2.2
  | .whileBlock e b els, c, w, t => by
    simp only [analyse]
    simp only [Stmt.tails] at t
    refine (analyseExpr_judge (sameNames_self c) hq e).post.bind (fun e' he =>
      (analyseOpt_post b { c with control := c.control + 1 } w t.1).bind ?_)
    rintro ⟨b', c1⟩ ⟨h1, h2⟩
    have hm := Ctx.merge_step h1
    refine (analyseElse_post els _ (hm.wf w) t.2).bind ?_
    rintro ⟨els', c2⟩ ⟨k1, k2⟩
    have h := hm.trans k1
    obtain ⟨m1, m2, m3, m4⟩ := merge_mono (N := N) hq hN h1 k1
    have h2 := h2.mono m1 m2
    have k2 := k2.mono m3 m4
    refine .pure ⟨⟨h.regular, rfl, h.hypertag, h.next, h.binds⟩, ?_, ?_, ?_⟩
    · simp only [Stmt.writes]; exact ⟨h2.1, k2.1⟩
    · simp only [Stmt.reads]; exact ⟨he, h2.2.1, k2.2.1⟩
    · simp only [Stmt.defs]; exact h2.2.2.append k2.2.2
  | .forBlock tg e rest, c, w, t => by
    simp only [analyse]
    simp only [Stmt.tails] at t
    refine (analyseExpr_judge (sameNames_self c) hq e).post.bind (fun e' he =>
      (analyseTarget_judge (N := N) hq tg { c with control := c.control + 1 } _
        (sameNames_self c)).post.bind ?_)
    rintro ⟨tg', c1⟩ ⟨h1, h2, h3, h4⟩
    refine (analyseFirst_post rest c1 (h1.wf w) t).bind ?_
    rintro ⟨rest', c2⟩ ⟨k1, k2⟩
    have h := h1.trans k1
    have h3 := Target.writes_mono (q := Ctx.W N c c2) (fun o => .right k1.next) _ h3
    have k2 := k2.mono (fun o => .left h1 k1.next) (fun o => .left h1.next)
    refine .pure ⟨⟨h.regular, rfl, h.hypertag, h.next, h.binds⟩, ?_, ?_, ?_⟩
    · simp only [Stmt.writes]; exact ⟨h3, k2.1⟩
    · simp only [Stmt.reads]; exact ⟨he, k2.2.1⟩
    · simp only [Stmt.defs]; exact k2.2.2
  | .exprBlock e, c, _, _ => by
    simp only [analyse]
    exact (analyseExpr_judge (sameNames_self c) hq e).post.bind (fun l' h => .pure
      ⟨.refl c, by simp only [Stmt.writes], by simp only [Stmt.reads]; exact h, .nil⟩)
  | .assign tg op e, c, _, _ => by
    simp only [analyse]
    refine (analyseExpr_judge (sameNames_self c) hq e).post.bind (fun e' he =>
      (analyseTarget_judge (N := N) hq tg c _ (sameNames_self c)).post.bind ?_)
    rintro ⟨tg', c1⟩ ⟨h1, h2, h3, h4⟩
    refine .pure ⟨h1, ?_, ?_, .nil⟩
    · simp only [Stmt.writes]; exact h3
    · simp only [Stmt.reads]; exact ⟨he, h4⟩
  | .body ss, c, w, t => by
    simp only [analyse]
    simp only [Stmt.tails] at t
    refine (analyseAll_post ss c w t).bind ?_
    rintro ⟨ss', c1⟩ ⟨h1, h2⟩
    refine .pure ⟨h1, ?_, ?_, ?_⟩
    · simp only [Stmt.writes]; exact h2.1
    · simp only [Stmt.reads]; exact h2.2.1
    · simp only [Stmt.defs]; exact h2.2.2
  | .pass, c, _, _ => by
    simp only [analyse]
    exact .pure ⟨.refl c, by simp only [Stmt.writes], by simp only [Stmt.reads], .nil⟩
theorem analyseAll_post : ∀ (ss : List (Stmt P)) (c : Ctx), c.WF → Stmt.tailsAll (Raw N) ss →
    Post (fun r => c.Step r.2 ∧ TreeAll N q c r.2 r.1) (analyseAll src ss c)
  | [], c, _, _ => by
    simp only [analyseAll]
    exact .pure ⟨.refl c, by simp only [Stmt.writesAll], by simp only [Stmt.readsAll],
      by simp only [Stmt.defsAll]; exact .nil⟩
  | s :: ss, c, w, t => by
    simp only [analyseAll]
    simp only [Stmt.tailsAll] at t
    refine (analyse_post s c w t.1).bind ?_
    rintro ⟨s', c1⟩ ⟨h1, h2⟩
    refine (analyseAll_post ss c1 (h1.wf w) t.2).bind ?_
    rintro ⟨ss', c2⟩ ⟨k1, k2⟩
    have h2 := h2.mono (fun o => .right k1.next) (fun o => .right k1)
    have k2 := k2.mono (fun o => .left h1 k1.next) (fun o => .left h1.next)
    refine .pure ⟨h1.trans k1, ?_, ?_, ?_⟩
    · simp only [Stmt.writesAll]; exact ⟨h2.1, k2.1⟩
    · simp only [Stmt.readsAll]; exact ⟨h2.2.1, k2.2.1⟩
    · simp only [Stmt.defsAll]; exact h2.2.2.append k2.2.2
theorem analyseBranches_post : ∀ (ss : List (Stmt P)) (c : Ctx), c.WF → Stmt.tailsAll (Raw N) ss →
    Post (fun r => c.Step r.2 ∧ TreeAll N q c r.2 r.1) (analyseBranches src ss c)
  | [], c, _, _ => by
    simp only [analyseBranches]
    exact .pure ⟨.refl c, by simp only [Stmt.writesAll], by simp only [Stmt.readsAll],
      by simp only [Stmt.defsAll]; exact .nil⟩
  | s :: ss, c, w, t => by
    simp only [analyseBranches]
    simp only [Stmt.tailsAll] at t
    refine (analyse_post s c w t.1).bind ?_
    rintro ⟨s', c1⟩ ⟨h1, h2⟩
    have hm := Ctx.merge_step h1
    refine (analyseBranches_post ss _ (hm.wf w) t.2).bind ?_
    rintro ⟨ss', c2⟩ ⟨k1, k2⟩
    obtain ⟨m1, m2, m3, m4⟩ := merge_mono (N := N) hq hN h1 k1
    have h2 := h2.mono m1 m2
    have k2 := k2.mono m3 m4
    refine .pure ⟨hm.trans k1, ?_, ?_, ?_⟩
    · simp only [Stmt.writesAll]; exact ⟨h2.1, k2.1⟩
    · simp only [Stmt.readsAll]; exact ⟨h2.2.1, k2.2.1⟩
    · simp only [Stmt.defsAll]; exact h2.2.2.append k2.2.2
theorem analyseClauses_post : ∀ (ss : List (Expr × Option (Stmt P))) (c : Ctx), c.WF →
    Stmt.tailsClauses (Raw N) ss →
    Post (fun r => c.Step r.2 ∧ TreeClauses N q c r.2 r.1) (analyseClauses src ss c)
  | [], c, _, _ => by
    simp only [analyseClauses]
    exact .pure ⟨.refl c, by simp only [Stmt.writesClauses], by simp only [Stmt.readsClauses],
      by simp only [Stmt.defsClauses]; exact .nil⟩
  | s :: ss, c, w, t => by
    simp only [analyseClauses]
    simp only [Stmt.tailsClauses] at t
    refine (analyseClause_post s c w t.1).bind ?_
    rintro ⟨s', c1⟩ ⟨h1, h2⟩
    have hm := Ctx.merge_step h1
    refine (analyseClauses_post ss _ (hm.wf w) t.2).bind ?_
    rintro ⟨ss', c2⟩ ⟨k1, k2⟩
    obtain ⟨m1, m2, m3, m4⟩ := merge_mono (N := N) hq hN h1 k1
    have h2 := h2.mono m1 m2
    have k2 := k2.mono m3 m4
    refine .pure ⟨hm.trans k1, ?_, ?_, ?_⟩
    · simp only [Stmt.writesClauses]; exact ⟨h2.1, k2.1⟩
    · simp only [Stmt.readsClauses]; exact ⟨h2.2.1, k2.2.1⟩
    · simp only [Stmt.defsClauses]; exact h2.2.2.append k2.2.2
theorem analyseClause_post : ∀ (s : Expr × Option (Stmt P)) (c : Ctx), c.WF →
    Stmt.tailsClause (Raw N) s →
    Post (fun r => c.Step r.2 ∧ TreeClause N q c r.2 r.1) (analyseClause src s c)
  | (e, b), c, w, t => by
    simp only [analyseClause]
    simp only [Stmt.tailsClause] at t
    refine (analyseExpr_judge (sameNames_self c) hq e).post.bind (fun e' he =>
      (analyseOpt_post b c w t).bind ?_)
    rintro ⟨b', c1⟩ ⟨h1, h2⟩
    refine .pure ⟨h1, ?_, ?_, ?_⟩
    · simp only [Stmt.writesClause]; exact h2.1
    · simp only [Stmt.readsClause]; exact ⟨he, h2.2.1⟩
    · simp only [Stmt.defsClause]; exact h2.2.2
theorem analyseElse_post : ∀ (o : Option (Stmt P)) (c : Ctx), c.WF → Stmt.tailsOpt (Raw N) o →
    Post (fun r => c.Step r.2 ∧ TreeOpt N q c r.2 r.1) (analyseElse src o c)
  | .none, c, _, _ => by
    simp only [analyseElse]
    exact .pure ⟨.refl c, by simp only [Stmt.writesOpt], by simp only [Stmt.readsOpt],
      by simp only [Stmt.defsOpt]; exact .nil⟩
  | some s, c, w, t => by
    simp only [analyseElse]
    simp only [Stmt.tailsOpt] at t
    refine (analyse_post s c w t).bind ?_
    rintro ⟨s', c1⟩ ⟨h1, h2⟩
    have hm := Ctx.merge_step h1
    obtain ⟨m1, m2, m3, m4⟩ := merge_mono (N := N) hq hN h1 (.refl _)
    have h2 := h2.mono m1 m2
    refine .pure ⟨hm, ?_, ?_, ?_⟩
    · simp only [Stmt.writesOpt]; exact h2.1
    · simp only [Stmt.readsOpt]; exact h2.2.1
    · simp only [Stmt.defsOpt]; exact h2.2.2
theorem analyseOpt_post : ∀ (o : Option (Stmt P)) (c : Ctx), c.WF → Stmt.tailsOpt (Raw N) o →
    Post (fun r => c.Step r.2 ∧ TreeOpt N q c r.2 r.1) (analyseOpt src o c)
  | .none, c, _, _ => by
    simp only [analyseOpt]
    exact .pure ⟨.refl c, by simp only [Stmt.writesOpt], by simp only [Stmt.readsOpt],
      by simp only [Stmt.defsOpt]; exact .nil⟩
  | some s, c, w, t => by
    simp only [analyseOpt]
    simp only [Stmt.tailsOpt] at t
    refine (analyse_post s c w t).bind ?_
    rintro ⟨s', c1⟩ ⟨h1, h2⟩
    refine .pure ⟨h1, ?_, ?_, ?_⟩
    · simp only [Stmt.writesOpt]; exact h2.1
    · simp only [Stmt.readsOpt]; exact h2.2.1
    · simp only [Stmt.defsOpt]; exact h2.2.2
theorem analyseFirst_post : ∀ (ss : List (Stmt P)) (c : Ctx), c.WF → Stmt.tailsFirst (Raw N) ss →
    Post (fun r => c.Step r.2 ∧ TreeAll N q c r.2 r.1) (analyseFirst src ss c)
  | [], c, _, _ => by
    simp only [analyseFirst]
    exact .pure ⟨.refl c, by simp only [Stmt.writesAll], by simp only [Stmt.readsAll],
      by simp only [Stmt.defsAll]; exact .nil⟩
  | s :: ss, c, w, t => by
    simp only [analyseFirst]
    simp only [Stmt.tailsFirst] at t
    refine (analyse_post s c w t.1).bind ?_
    rintro ⟨s', c1⟩ ⟨h1, h2⟩
    have k2 := raw_all hq hN t.2 c c1
    refine .pure ⟨h1, ?_, ?_, ?_⟩
    · simp only [Stmt.writesAll]; exact ⟨h2.1, k2.1⟩
    · simp only [Stmt.readsAll]; exact ⟨h2.2.1, k2.2.1⟩
    · simp only [Stmt.defsAll]; exact h2.2.2.append k2.2.2
end

end
end
end Verif
