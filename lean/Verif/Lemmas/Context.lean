import Verif.Lemmas.Analyse
import Verif.Spec.Context

/-! Context blocks in analysed documents. -/

namespace Verif
open Py

section
variable {P I : Type}

/-! ### The prolog flag -/

theorem Ctx.pushnew_prolog (c : Ctx) (l : List (Str × SlotInfo)) : (c.pushnew l).prolog = c.prolog := by
  induction l generalizing c with
  | nil => rfl
  | cons p l ih =>
    obtain ⟨k, v⟩ := p
    rw [Ctx.pushnew]
    split
    · exact ih c
    · rw [ih]; rfl

theorem Ctx.mergeBranch_prolog (c0 c : Ctx) : (c0.mergeBranch c).prolog = c.prolog := by
  rw [Ctx.mergeBranch, Ctx.pushnew_prolog]

theorem newSlot_prolog (c : Ctx) (sym : Str) :
    Post (fun r => r.2.prolog = c.prolog) (newSlot c sym : Except (AErr I) (SlotInfo × Ctx)) := by
  unfold newSlot
  split
  · exact .ok rfl
  · exact .error

theorem declare_prolog (c : Ctx) (sym : Str) :
    Post (fun r => r.2.prolog = c.prolog) (declare c sym : Except (AErr I) (SlotInfo × Ctx)) :=
  (newSlot_prolog c sym).bind (fun _ h => .pure h)

theorem declareAttrs_prolog (as : List AttrDef) (c : Ctx) :
    Post (fun r => r.2.prolog = c.prolog) (declareAttrs as c : Except (AErr I) _) := by
  induction as generalizing c with
  | nil => exact .pure rfl
  | cons a as ih =>
    refine (declare_prolog c _).bind ?_
    rintro ⟨s, c1⟩ h
    refine (ih c1).bind ?_
    rintro ⟨as', c2⟩ h2
    exact .pure (h2.trans h)

theorem valueSlots_prolog (l : List (Str × Val P)) (c : Ctx) :
    Post (fun r => r.2.prolog = c.prolog) (valueSlots l c : Except (AErr I) _) := by
  induction l generalizing c with
  | nil => exact .pure rfl
  | cons a l ih =>
    obtain ⟨sym, v⟩ := a
    refine (newSlot_prolog c _).bind ?_
    rintro ⟨s, c1⟩ h
    refine (ih c1).bind ?_
    rintro ⟨as', c2⟩ h2
    exact .pure (h2.trans h)

theorem writeSlot_prolog (c : Ctx) (sym : Str) :
    Post (fun r => r.2.prolog = c.prolog) (writeSlot c sym : Except (AErr I) (SlotInfo × Ctx)) := by
  unfold writeSlot
  split
  · split
    · exact .ok rfl
    · exact declare_prolog c sym
  · exact declare_prolog c sym

mutual
theorem analyseTarget_prolog : ∀ (t : Target) (c : Ctx),
    Post (fun r => r.2.prolog = c.prolog) (analyseTarget t c : Except (AErr I) (Target × Ctx))
  | .var name read _ _, c => by
    simp only [analyseTarget]
    refine Post.bind (Q := fun _ => True) (fun _ _ => trivial) (fun _ _ => ?_)
    refine (writeSlot_prolog c _).bind ?_
    rintro ⟨s, c1⟩ h
    exact .pure h
  | .many ts, c => by
    simp only [analyseTarget]
    refine (analyseTargets_prolog ts c).bind ?_
    rintro ⟨s, c1⟩ h
    exact .pure h
theorem analyseTargets_prolog : ∀ (ts : List Target) (c : Ctx),
    Post (fun r => r.2.prolog = c.prolog) (analyseTargets ts c : Except (AErr I) (List Target × Ctx))
  | [], c => by simp only [analyseTargets]; exact .pure rfl
  | t :: ts, c => by
    simp only [analyseTargets]
    refine (analyseTarget_prolog t c).bind ?_
    rintro ⟨s, c1⟩ h
    refine (analyseTargets_prolog ts c1).bind ?_
    rintro ⟨as', c2⟩ h2
    exact .pure (h2.trans h)
end

/-- Every symbol to be taken from the context is there. -/
def Present (src : Source P I) (items : List (ImportItem P)) : Prop :=
  ∀ sym ren sl, .cntx sym ren sl ∈ items → (Dict.get? src.context sym).isSome

theorem analyseImport_prolog (src : Source P I) (path : Option Str) (i : ImportItem P) (c : Ctx) :
    Post (fun r => r.2.prolog = c.prolog ∧ Present src [i]) (analyseImport src path i c) := by
  cases i with
  | wild old =>
    simp only [analyseImport]
    refine Post.bind (Q := fun _ => True) (fun _ _ => trivial) (fun m _ => ?_)
    refine Post.bind (Q := fun _ => True) (fun _ _ => trivial) (fun pub _ => ?_)
    refine (valueSlots_prolog pub c).bind ?_
    rintro ⟨l, c1⟩ h
    exact .pure ⟨h, by intro sym ren sl hm; simp at hm⟩
  | name sym ren old =>
    simp only [analyseImport]
    split
    · exact .error
    · refine Post.bind (Q := fun _ => True) (fun _ _ => trivial) (fun m _ => ?_)
      split
      · exact .error
      · refine (newSlot_prolog c _).bind ?_
        rintro ⟨l, c1⟩ h
        exact .pure ⟨h, by intro sym ren sl hm; simp at hm⟩
  | cntx sym ren old =>
    simp only [analyseImport]
    split
    · exact .error
    · next hg =>
      refine (newSlot_prolog c _).bind ?_
      rintro ⟨l, c1⟩ h
      refine .pure ⟨h, ?_⟩
      intro sym' ren' sl hm
      simp only [List.mem_singleton, ImportItem.cntx.injEq] at hm
      rw [hm.1, hg]
      rfl

theorem analyseImports_prolog (src : Source P I) (path : Option Str) (items : List (ImportItem P))
    (c : Ctx) :
    Post (fun r => r.2.prolog = c.prolog ∧ Present src items) (analyseImports src path items c) := by
  induction items generalizing c with
  | nil => exact .pure ⟨rfl, by intro _ _ _ h; cases h⟩
  | cons i is ih =>
    simp only [analyseImports]
    refine (analyseImport_prolog src path i c).bind ?_
    rintro ⟨i', c1⟩ ⟨h, h'⟩
    refine (ih c1).bind ?_
    rintro ⟨is', c2⟩ ⟨k, k'⟩
    refine .pure ⟨k.trans h, ?_⟩
    intro sym ren sl hm
    rcases List.mem_cons.1 hm with e | hm
    · exact h' sym ren sl (by simp [e])
    · exact k' sym ren sl hm

/-! ### Analysis -/

/-- Outside of the prolog there is no context block, and outside it stays; the symbols to be taken from
the context are there. -/
def CtxOk (src : Source P I) (imps : (Bool → List (ImportItem P) → Prop) → Prop) (c c' : Ctx) : Prop :=
  (c.prolog = false → c'.prolog = false ∧ imps (fun cx _ => cx = false)) ∧
  imps (fun _ items => Present src items)

variable (src : Source P I)

theorem CtxOk.leaf {imps : (Bool → List (ImportItem P) → Prop) → Prop} {c c' : Ctx} (h : ∀ K, imps K)
    (hc : c'.prolog = c.prolog) : CtxOk src imps c c' :=
  ⟨fun hp => ⟨hc.trans hp, h _⟩, h _⟩

theorem CtxOk.seq {i1 i2 : (Bool → List (ImportItem P) → Prop) → Prop} {c c1 c' : Ctx}
    (h1 : CtxOk src i1 c c1) (h2 : CtxOk src i2 c1 c') : CtxOk src (fun K => i1 K ∧ i2 K) c c' :=
  ⟨fun hp => ⟨(h2.1 (h1.1 hp).1).1, (h1.1 hp).2, (h2.1 (h1.1 hp).1).2⟩, h1.2, h2.2⟩

theorem CtxOk.of_eq {imps : (Bool → List (ImportItem P) → Prop) → Prop} {c c1 c2 c' : Ctx}
    (h : CtxOk src imps c1 c2) (h1 : c.prolog = false → c1.prolog = false) (h2 : c'.prolog = c2.prolog) :
    CtxOk src imps c c' :=
  ⟨fun hp => ⟨h2.trans (h.1 (h1 hp)).1, (h.1 (h1 hp)).2⟩, h.2⟩

theorem leaveProlog_false (b : Stmt P) (c : Ctx) (h : c.prolog = false) :
    (leaveProlog b c).prolog = false := by
  unfold leaveProlog
  split <;> first | exact h | rfl

/-- Any result of a computation whose result does not matter. -/
theorem Post.any {ε α : Type} (r : Except ε α) : Post (fun _ => True) r := fun _ _ => trivial

mutual
theorem analyse_ctx : ∀ (s : Stmt P) (c : Ctx), s.noForElse →
    Post (fun r => CtxOk src (fun K => s.imps K) c r.2) (analyse src s c)
  | .static _, c, _ => by
    simp only [analyse]; exact .pure (.leaf src (fun K => by simp only [Stmt.imps]) rfl)
  | .indent _, c, _ => by
    simp only [analyse]; exact .pure (.leaf src (fun K => by simp only [Stmt.imps]) rfl)
  | .dedent _, c, _ => by
    simp only [analyse]; exact .pure (.leaf src (fun K => by simp only [Stmt.imps]) rfl)
  | .comment, c, _ => by
    simp only [analyse]; exact .pure (.leaf src (fun K => by simp only [Stmt.imps]) rfl)
  | .pass, c, _ => by
    simp only [analyse]; exact .pure (.leaf src (fun K => by simp only [Stmt.imps]) rfl)
  | .line l, c, _ => by
    simp only [analyse]
    exact (Post.any _).bind (fun _ _ => .pure (.leaf src (fun K => by simp only [Stmt.imps]) rfl))
  | .text _ items, c, _ => by
    simp only [analyse]
    exact (Post.any _).bind (fun _ _ => .pure (.leaf src (fun K => by simp only [Stmt.imps]) rfl))
  | .embed e, c, _ => by
    simp only [analyse]
    exact (Post.any _).bind (fun _ _ => .pure (.leaf src (fun K => by simp only [Stmt.imps]) rfl))
  | .exprBlock e, c, _ => by
    simp only [analyse]
    exact (Post.any _).bind (fun _ _ => .pure (.leaf src (fun K => by simp only [Stmt.imps]) rfl))
  | .assign tg op e, c, _ => by
    simp only [analyse]
    refine (Post.any _).bind (fun _ _ => (analyseTarget_prolog tg c).bind ?_)
    rintro ⟨t', c1⟩ h
    exact .pure (.leaf src (fun K => by simp only [Stmt.imps]) h)
  | .xblock m mo b, c, t => by
    simp only [analyse]
    simp only [Stmt.noForElse, Stmt.tails] at t
    refine (analyse_ctx b _ t).bind ?_
    rintro ⟨b', c1⟩ h
    refine .pure ?_
    simp only [Stmt.imps]
    exact h.of_eq src (leaveProlog_false b c) rfl
  | .struct tags b, c, t => by
    simp only [analyse]
    simp only [Stmt.noForElse, Stmt.tails] at t
    refine (Post.any _).bind (fun _ _ => (analyse_ctx b _ t).bind ?_)
    rintro ⟨b', c1⟩ h
    refine .pure ?_
    simp only [Stmt.imps]
    exact h.of_eq src id rfl
  | .defn id name _ ba as b, c, t => by
    simp only [analyse]
    simp only [Stmt.noForElse, Stmt.tails] at t
    split
    · exact .error
    · refine (Post.any _).bind (fun _ _ => (Post.any _).bind (fun _ _ =>
        (declareAttrs_prolog _ _).bind ?_))
      rintro ⟨ba', c1⟩ h1
      refine (declareAttrs_prolog _ _).bind ?_
      rintro ⟨as', c2⟩ h2
      refine (analyse_ctx b _ t).bind ?_
      rintro ⟨b', c3⟩ h3
      refine (newSlot_prolog _ _).bind ?_
      rintro ⟨s', c4⟩ h4
      refine .pure ?_
      simp only [Stmt.imps]
      exact h3.of_eq src (fun h => h2.trans (h1.trans h)) h4
  | .imports true path items, c, _ => by
    simp only [analyse]
    split
    · next hp =>
      refine (analyseImports_prolog src path items c).bind ?_
      rintro ⟨items', c1⟩ ⟨h1, h2⟩
      refine .pure ?_
      simp only [Stmt.imps]
      exact ⟨fun h => (by rw [hp] at h; cases h), h2⟩
    · exact .error
  | .imports false path items, c, _ => by
    simp only [analyse]
    split
    · exact .error
    · refine (analyseImports_prolog src path items c).bind ?_
      rintro ⟨items', c1⟩ ⟨h1, h2⟩
      refine .pure ?_
      simp only [Stmt.imps]
      exact ⟨fun h => ⟨h1.trans h, rfl⟩, h2⟩
  | .tryBlock bs, c, t => by
    simp only [analyse]
    simp only [Stmt.noForElse, Stmt.tails] at t
    refine (analyseBranches_ctx bs _ t).bind ?_
    rintro ⟨bs', c1⟩ h
    refine .pure ?_
    simp only [Stmt.imps]
    exact h.of_eq src id rfl
  | .ifBlock cs els, c, t => by
    simp only [analyse]
    simp only [Stmt.noForElse, Stmt.tails] at t
    refine (analyseClauses_ctx cs _ t.1).bind ?_
    rintro ⟨cs', c1⟩ h
    refine (analyseElse_ctx els _ t.2).bind ?_
    rintro ⟨els', c2⟩ k
    refine .pure ?_
    simp only [Stmt.imps]
    exact (h.seq src k).of_eq src id rfl
  | .elseClause b, c, t => by
    simp only [analyse]
    simp only [Stmt.noForElse, Stmt.tails] at t
    refine (analyseOpt_ctx b _ t).bind ?_
    rintro ⟨bs', c1⟩ h
    refine .pure ?_
    simp only [Stmt.imps]
    exact h
  | .whileBlock e b els, c, t => by
    simp only [analyse]
    simp only [Stmt.noForElse, Stmt.tails] at t
    refine (Post.any _).bind (fun _ _ => (analyseOpt_ctx b _ t.1).bind ?_)
    rintro ⟨b', c1⟩ h
    refine (analyseElse_ctx els _ t.2).bind ?_
    rintro ⟨els', c2⟩ k
    refine .pure ?_
    simp only [Stmt.imps]
    refine (h.seq src (k.of_eq src (c := c1) (fun h => ?_) rfl)).of_eq src id rfl
    rw [Ctx.mergeBranch_prolog]
    exact h
  | .forBlock tg e rest, c, t => by
    simp only [analyse]
    simp only [Stmt.noForElse, Stmt.tails] at t
    refine (Post.any _).bind (fun _ _ => (analyseTarget_prolog tg _).bind ?_)
    rintro ⟨tg', c1⟩ h
    refine (analyseFirst_ctx rest _ t).bind ?_
    rintro ⟨rest', c2⟩ k
    refine .pure ?_
    simp only [Stmt.imps]
    exact k.of_eq src (fun h' => h.trans h') rfl
  | .body ss, c, t => by
    simp only [analyse]
    simp only [Stmt.noForElse, Stmt.tails] at t
    refine (analyseAll_ctx ss _ t).bind ?_
    rintro ⟨bs', c1⟩ h
    refine .pure ?_
    simp only [Stmt.imps]
    exact h
theorem analyseAll_ctx : ∀ (ss : List (Stmt P)) (c : Ctx), Stmt.tailsAll (fun _ => False) ss →
    Post (fun r => CtxOk src (fun K => Stmt.impsAll K ss) c r.2) (analyseAll src ss c)
  | [], c, _ => by
    simp only [analyseAll]; exact .pure (.leaf src (fun K => by simp only [Stmt.impsAll]) rfl)
  | s :: ss, c, t => by
    simp only [analyseAll]
    simp only [Stmt.tailsAll] at t
    refine (analyse_ctx s _ t.1).bind ?_
    rintro ⟨s', c1⟩ h
    refine (analyseAll_ctx ss _ t.2).bind ?_
    rintro ⟨ss', c2⟩ k
    refine .pure ?_
    simp only [Stmt.impsAll]
    exact h.seq src k
theorem analyseBranches_ctx : ∀ (ss : List (Stmt P)) (c : Ctx), Stmt.tailsAll (fun _ => False) ss →
    Post (fun r => CtxOk src (fun K => Stmt.impsAll K ss) c r.2) (analyseBranches src ss c)
  | [], c, _ => by
    simp only [analyseBranches]; exact .pure (.leaf src (fun K => by simp only [Stmt.impsAll]) rfl)
  | s :: ss, c, t => by
    simp only [analyseBranches]
    simp only [Stmt.tailsAll] at t
    refine (analyse_ctx s _ t.1).bind ?_
    rintro ⟨s', c1⟩ h
    refine (analyseBranches_ctx ss _ t.2).bind ?_
    rintro ⟨ss', c2⟩ k
    refine .pure ?_
    simp only [Stmt.impsAll]
    exact h.seq src (k.of_eq src (fun h => (Ctx.mergeBranch_prolog _ _).trans h) rfl)
theorem analyseClauses_ctx : ∀ (cs : List (Expr × Option (Stmt P))) (c : Ctx),
    Stmt.tailsClauses (fun _ => False) cs →
    Post (fun r => CtxOk src (fun K => Stmt.impsClauses K cs) c r.2) (analyseClauses src cs c)
  | [], c, _ => by
    simp only [analyseClauses]; exact .pure (.leaf src (fun K => by simp only [Stmt.impsClauses]) rfl)
  | s :: ss, c, t => by
    simp only [analyseClauses]
    simp only [Stmt.tailsClauses] at t
    refine (analyseClause_ctx s _ t.1).bind ?_
    rintro ⟨s', c1⟩ h
    refine (analyseClauses_ctx ss _ t.2).bind ?_
    rintro ⟨ss', c2⟩ k
    refine .pure ?_
    simp only [Stmt.impsClauses]
    exact h.seq src (k.of_eq src (fun h => (Ctx.mergeBranch_prolog _ _).trans h) rfl)
theorem analyseClause_ctx : ∀ (cl : Expr × Option (Stmt P)) (c : Ctx),
    Stmt.tailsClause (fun _ => False) cl →
    Post (fun r => CtxOk src (fun K => Stmt.impsClause K cl) c r.2) (analyseClause src cl c)
  | (e, b), c, t => by
    simp only [analyseClause]
    simp only [Stmt.tailsClause] at t
    refine (Post.any _).bind (fun _ _ => (analyseOpt_ctx b _ t).bind ?_)
    rintro ⟨s', c1⟩ h
    refine .pure ?_
    simp only [Stmt.impsClause]
    exact h
theorem analyseElse_ctx : ∀ (s : Option (Stmt P)) (c : Ctx), Stmt.tailsOpt (fun _ => False) s →
    Post (fun r => CtxOk src (fun K => Stmt.impsOpt K s) c r.2) (analyseElse src s c)
  | .none, c, _ => by
    simp only [analyseElse]; exact .pure (.leaf src (fun K => by simp only [Stmt.impsOpt]) rfl)
  | some s, c, t => by
    simp only [analyseElse]
    simp only [Stmt.tailsOpt] at t
    refine (analyse_ctx s _ t).bind ?_
    rintro ⟨s', c1⟩ h
    refine .pure ?_
    simp only [Stmt.impsOpt]
    exact h.of_eq src id (Ctx.mergeBranch_prolog _ _)
theorem analyseOpt_ctx : ∀ (s : Option (Stmt P)) (c : Ctx), Stmt.tailsOpt (fun _ => False) s →
    Post (fun r => CtxOk src (fun K => Stmt.impsOpt K s) c r.2) (analyseOpt src s c)
  | .none, c, _ => by
    simp only [analyseOpt]; exact .pure (.leaf src (fun K => by simp only [Stmt.impsOpt]) rfl)
  | some s, c, t => by
    simp only [analyseOpt]
    simp only [Stmt.tailsOpt] at t
    refine (analyse_ctx s _ t).bind ?_
    rintro ⟨s', c1⟩ h
    refine .pure ?_
    simp only [Stmt.impsOpt]
    exact h
theorem analyseFirst_ctx : ∀ (ss : List (Stmt P)) (c : Ctx), Stmt.tailsFirst (fun _ => False) ss →
    Post (fun r => CtxOk src (fun K => Stmt.impsAll K ss) c r.2) (analyseFirst src ss c)
  | [], c, _ => by
    simp only [analyseFirst]; exact .pure (.leaf src (fun K => by simp only [Stmt.impsAll]) rfl)
  | [s], c, t => by
    simp only [analyseFirst]
    simp only [Stmt.tailsFirst] at t
    refine (analyse_ctx s _ t.1).bind ?_
    rintro ⟨s', c1⟩ h
    refine .pure ?_
    simp only [Stmt.impsAll, and_true]
    exact h
  | s :: s2 :: ss, c, t => by
    simp only [Stmt.tailsFirst] at t
    exact (t.2 s2 (by simp)).elim
end

/-! ### Dependency on the context -/

/-- Same modules, and the same values of the symbols in `Q`. -/
structure SameSource (Q : Str → Prop) (src src' : Source P I) : Prop where
  modules : src.modules = src'.modules
  context : ∀ sym, Q sym → Dict.get? src.context sym = Dict.get? src'.context sym

variable {src} {src' : Source P I} {Q : Str → Prop}

/-- The predicate behind `Stmt.declared`. -/
def DeclaredIn (Q : Str → Prop) (items : List (ImportItem P)) : Prop :=
  ∀ sym ren sl, .cntx sym ren sl ∈ items → Q sym

theorem analyseImport_same (h : SameSource Q src src') (path : Option Str) (i : ImportItem P) (c : Ctx)
    (hi : DeclaredIn Q [i]) : analyseImport src path i c = analyseImport src' path i c := by
  cases i with
  | wild old => simp only [analyseImport, loadModule, h.modules]
  | name sym ren old => simp only [analyseImport, loadModule, h.modules]
  | cntx sym ren old => simp only [analyseImport, h.context sym (hi sym ren old (by simp))]

theorem analyseImports_same (h : SameSource Q src src') (path : Option Str) (items : List (ImportItem P))
    (c : Ctx) (hi : DeclaredIn Q items) : analyseImports src path items c = analyseImports src' path items c := by
  induction items generalizing c with
  | nil => rfl
  | cons i is ih =>
    simp only [analyseImports]
    rw [analyseImport_same h path i c (fun s r sl hm => hi s r sl (by
      simp only [List.mem_singleton] at hm; simp [hm]))]
    congr 1
    funext r
    rw [ih r.2 (fun s r sl hm => hi s r sl (List.mem_cons_of_mem _ hm))]

section
variable (h : SameSource Q src src')
include h

set_option linter.unusedSectionVars false

mutual
theorem analyse_same : ∀ (s : Stmt P) (c : Ctx), s.imps (fun _ items => DeclaredIn Q items) →
    analyse src s c = analyse src' s c
  | .static _, c, _ => by simp only [analyse]
  | .indent _, c, _ => by simp only [analyse]
  | .dedent _, c, _ => by simp only [analyse]
  | .comment, c, _ => by simp only [analyse]
  | .pass, c, _ => by simp only [analyse]
  | .line l, c, _ => by simp only [analyse]
  | .text _ items, c, _ => by simp only [analyse]
  | .embed e, c, _ => by simp only [analyse]
  | .exprBlock e, c, _ => by simp only [analyse]
  | .assign tg op e, c, _ => by simp only [analyse]
  | .xblock m mo b, c, t => by
    simp only [Stmt.imps] at t
    simp only [analyse, analyse_same b _ t]
  | .struct tags b, c, t => by
    simp only [Stmt.imps] at t
    simp only [analyse, analyse_same b _ t]
  | .defn id name _ ba as b, c, t => by
    simp only [Stmt.imps] at t
    simp only [analyse, analyse_same b _ t]
  | .imports true path items, c, t => by
    simp only [Stmt.imps] at t
    simp only [analyse, analyseImports_same h path items c t]
  | .imports false path items, c, t => by
    simp only [Stmt.imps] at t
    simp only [analyse, analyseImports_same h path items c t]
  | .tryBlock bs, c, t => by
    simp only [Stmt.imps] at t
    simp only [analyse, analyseBranches_same bs _ t]
  | .ifBlock cs els, c, t => by
    simp only [Stmt.imps] at t
    simp only [analyse, analyseClauses_same cs _ t.1, analyseElse_same els _ t.2]
  | .elseClause b, c, t => by
    simp only [Stmt.imps] at t
    simp only [analyse, analyseOpt_same b _ t]
  | .whileBlock e b els, c, t => by
    simp only [Stmt.imps] at t
    simp only [analyse, analyseOpt_same b _ t.1, analyseElse_same els _ t.2]
  | .forBlock tg e rest, c, t => by
    simp only [Stmt.imps] at t
    simp only [analyse, analyseFirst_same rest _ t]
  | .body ss, c, t => by
    simp only [Stmt.imps] at t
    simp only [analyse, analyseAll_same ss _ t]
theorem analyseAll_same : ∀ (ss : List (Stmt P)) (c : Ctx),
    Stmt.impsAll (fun _ items => DeclaredIn Q items) ss → analyseAll src ss c = analyseAll src' ss c
  | [], c, _ => by simp only [analyseAll]
  | s :: ss, c, t => by
    simp only [Stmt.impsAll] at t
    simp only [analyseAll, analyse_same s _ t.1, analyseAll_same ss _ t.2]
theorem analyseBranches_same : ∀ (ss : List (Stmt P)) (c : Ctx),
    Stmt.impsAll (fun _ items => DeclaredIn Q items) ss →
    analyseBranches src ss c = analyseBranches src' ss c
  | [], c, _ => by simp only [analyseBranches]
  | s :: ss, c, t => by
    simp only [Stmt.impsAll] at t
    simp only [analyseBranches, analyse_same s _ t.1, analyseBranches_same ss _ t.2]
theorem analyseClauses_same : ∀ (cs : List (Expr × Option (Stmt P))) (c : Ctx),
    Stmt.impsClauses (fun _ items => DeclaredIn Q items) cs →
    analyseClauses src cs c = analyseClauses src' cs c
  | [], c, _ => by simp only [analyseClauses]
  | s :: ss, c, t => by
    simp only [Stmt.impsClauses] at t
    simp only [analyseClauses, analyseClause_same s _ t.1, analyseClauses_same ss _ t.2]
theorem analyseClause_same : ∀ (cl : Expr × Option (Stmt P)) (c : Ctx),
    Stmt.impsClause (fun _ items => DeclaredIn Q items) cl →
    analyseClause src cl c = analyseClause src' cl c
  | (e, b), c, t => by
    simp only [Stmt.impsClause] at t
    simp only [analyseClause, analyseOpt_same b _ t]
theorem analyseElse_same : ∀ (s : Option (Stmt P)) (c : Ctx),
    Stmt.impsOpt (fun _ items => DeclaredIn Q items) s → analyseElse src s c = analyseElse src' s c
  | .none, c, _ => by simp only [analyseElse]
  | some s, c, t => by
    simp only [Stmt.impsOpt] at t
    simp only [analyseElse, analyse_same s _ t]
theorem analyseOpt_same : ∀ (s : Option (Stmt P)) (c : Ctx),
    Stmt.impsOpt (fun _ items => DeclaredIn Q items) s → analyseOpt src s c = analyseOpt src' s c
  | .none, c, _ => by simp only [analyseOpt]
  | some s, c, t => by
    simp only [Stmt.impsOpt] at t
    simp only [analyseOpt, analyse_same s _ t]
theorem analyseFirst_same : ∀ (ss : List (Stmt P)) (c : Ctx),
    Stmt.impsAll (fun _ items => DeclaredIn Q items) ss → analyseFirst src ss c = analyseFirst src' ss c
  | [], c, _ => by simp only [analyseFirst]
  | s :: ss, c, t => by
    simp only [Stmt.impsAll] at t
    simp only [analyseFirst, analyse_same s _ t.1]
end
end

end
end Verif
