import Verif.Lemmas.Made
import Verif.Lemmas.Mentions
import Verif.Lemmas.Fresh

/-! Parsed scripts have no slots; which slots are written does not matter to `Blind`. -/

set_option linter.unusedSectionVars false

namespace Verif
open Py Spec

section
variable {P : Type} {M : Marks} {U : Uni}

mutual
theorem Expr.Made.noSlots : ∀ {e : Expr}, e.Made → e.reads (· = none)
  | .root _ e, h => by simp only [Expr.Made, Expr.reads] at *; exact h.noSlots
  | .tagUse _ _, h => by simp only [Expr.Made, Expr.reads] at *; exact h.1
  | .varUse _ _, h => by simp only [Expr.Made, Expr.reads] at *; exact h.1
  | .factor a ts _, h => by simp only [Expr.Made, Expr.reads] at *; exact ⟨h.1.noSlots, Tail.MadeAll.noSlots h.2⟩
  | .chain _ a _ es, h => by simp only [Expr.Made, Expr.reads] at *; exact ⟨h.1.noSlots, Expr.MadeAll.noSlots h.2.1⟩
  | .concat es, h => by simp only [Expr.Made, Expr.reads] at *; exact Expr.MadeAll.noSlots h
  | .bits _ a es, h => by simp only [Expr.Made, Expr.reads] at *; exact ⟨h.1.noSlots, Expr.MadeAll.noSlots h.2⟩
  | .pipeline a es, h => by simp only [Expr.Made, Expr.reads] at *; exact ⟨h.1.noSlots, Expr.MadeAll.noSlots h.2⟩
  | .notTest _ e, h => by simp only [Expr.Made, Expr.reads] at *; exact h.noSlots
  | .andTest a es, h => by simp only [Expr.Made, Expr.reads] at *; exact ⟨h.1.noSlots, Expr.MadeAll.noSlots h.2⟩
  | .orTest a es, h => by simp only [Expr.Made, Expr.reads] at *; exact ⟨h.1.noSlots, Expr.MadeAll.noSlots h.2⟩
  | .ifElse x t y, h => by
    simp only [Expr.Made, Expr.reads] at *; exact ⟨h.1.noSlots, h.2.1.noSlots, Expr.MadeOpt.noSlots h.2.2⟩
  | .list es, h => by simp only [Expr.Made, Expr.reads] at *; exact Expr.MadeAll.noSlots h
  | .tuple es, h => by simp only [Expr.Made, Expr.reads] at *; exact Expr.MadeAll.noSlots h
  | .set es, h => by simp only [Expr.Made, Expr.reads] at *; exact Expr.MadeAll.noSlots h
  | .dict es, h => by simp only [Expr.Made, Expr.reads] at *; exact Expr.MadeAll.noSlots h.1
  | .format es, h => by simp only [Expr.Made, Expr.reads] at *; exact Expr.MadeAll.noSlots h
  | .static _, _ => by simp only [Expr.reads]
  | .strLit _, _ => by simp only [Expr.reads]
  | .number _, _ => by simp only [Expr.reads]
  | .boolean _, _ => by simp only [Expr.reads]
  | .noneLit, _ => by simp only [Expr.reads]
  | .sliceNone, _ => by simp only [Expr.reads]
theorem Expr.MadeAll.noSlots : ∀ {es : List Expr}, Expr.MadeAll es → Expr.readsAll (· = none) es
  | [], _ => by simp only [Expr.readsAll]
  | e :: es, h => by simp only [Expr.MadeAll, Expr.readsAll] at *; exact ⟨h.1.noSlots, Expr.MadeAll.noSlots h.2⟩
theorem Expr.MadeOpt.noSlots : ∀ {o : Option Expr}, Expr.MadeOpt o → Expr.readsOpt (· = none) o
  | .none, _ => by simp only [Expr.readsOpt]
  | .some e, h => by simp only [Expr.MadeOpt, Expr.readsOpt] at *; exact h.noSlots
theorem Tail.MadeAll.noSlots : ∀ {ts : List Tail}, Tail.MadeAll ts → Tail.readsAll (· = none) ts
  | [], _ => by simp only [Tail.readsAll]
  | t :: ts, h => by simp only [Tail.MadeAll, Tail.readsAll] at *; exact ⟨h.1.noSlots, Tail.MadeAll.noSlots h.2⟩
theorem Tail.Made.noSlots : ∀ {t : Tail}, t.Made → t.reads (· = none)
  | .call _ _, h => by simp only [Tail.Made, Tail.reads] at *; exact Expr.MadeAll.noSlots h.1
  | .partialCall _ _, h => by simp only [Tail.Made, Tail.reads] at *; exact Expr.MadeAll.noSlots h.1
  | .index _, h => by simp only [Tail.Made, Tail.reads] at *; exact Expr.MadeAll.noSlots h.1
  | .member _, _ => by simp only [Tail.reads]
end

mutual
theorem Target.Made.noSlots : ∀ {t : Target}, t.Made → t.reads (· = none)
  | .var _ _ _ _, h => by simp only [Target.Made, Target.reads] at *; exact fun _ => h.2.1
  | .many ts, h => by simp only [Target.Made, Target.reads] at *; exact Target.MadeAll.noSlots h.2
theorem Target.MadeAll.noSlots : ∀ {ts : List Target}, Target.MadeAll ts → Target.readsAll (· = none) ts
  | [], _ => by simp only [Target.readsAll]
  | t :: ts, h => by simp only [Target.MadeAll, Target.readsAll] at *; exact ⟨h.1.noSlots, Target.MadeAll.noSlots h.2⟩
end

theorem Line.Made.noSlots {l : Line} (h : l.Made M) : l.reads (· = none) := by
  cases l <;> simp only [Line.Made, Line.reads] at *
  · exact Expr.MadeAll.noSlots h.1
  · exact Expr.MadeAll.noSlots h.1

theorem TagExp.Made.noSlots {t : TagExp} (h : t.Made U) : t.reads (· = none) := by
  cases t <;> simp only [TagExp.Made, TagExp.reads] at *
  exact ⟨Expr.MadeAll.noSlots h.2.2.1, fun n hn => (h.2.2.2 n hn).2.noSlots, h.2.1⟩

theorem nested_noSlots {k : LineKind} {is : List TextItem} (h : WellNested TextItem.indent TextItem.dedent (TextItem.Made M k) is) :
    ∀ i ∈ is, i.reads (· = none) := by
  induction h with
  | nil => simp
  | @one a as ha _ ih =>
    intro i hi
    rcases List.mem_cons.1 hi with rfl | hi
    · cases i <;> simp only [TextItem.Made, TextItem.reads] at *
      exact ha.1.noSlots
    · exact ih i hi
  | sub _ _ _ ih1 ih2 =>
    intro i hi
    simp only [List.mem_cons, List.mem_append] at hi
    rcases hi with rfl | hi | rfl | hi
    · simp only [TextItem.reads]
    · exact ih1 i hi
    · simp only [TextItem.reads]
    · exact ih2 i hi

mutual
theorem Stmt.Made.unslotted : ∀ {s : Stmt P}, s.Made M U → s.unslotted
  | .indent _, _ => by simp [Stmt.unslotted, Stmt.reads, Stmt.defs]
  | .dedent _, _ => by simp [Stmt.unslotted, Stmt.reads, Stmt.defs]
  | .xblock _ _ b, h => by
    simp only [Stmt.Made, Stmt.unslotted, Stmt.reads, Stmt.defs] at *
    exact h.2.2.unslotted
  | .struct _ b, h => by
    simp only [Stmt.Made, Stmt.unslotted, Stmt.reads, Stmt.defs] at *
    have hb := h.2.2.unslotted
    refine ⟨⟨?_, hb.1⟩, hb.2⟩
    rcases h.1 with rfl | h
    · simp [TagExp.reads]
    · exact fun t ht => (h.2 t ht).noSlots
  | .defn id name slot ba as b, h => by
    simp only [Stmt.Made, Stmt.unslotted, Stmt.reads, Stmt.defs] at *
    have hb := h.2.2.2.2.2.2.unslotted
    refine ⟨trivial, ?_⟩
    intro d hd
    rcases List.mem_cons.1 hd with rfl | hd
    · exact ⟨fun a ha => Expr.MadeOpt.noSlots (h.2.2.2.1 a ha).2.2, hb.1⟩
    · exact hb.2 d hd
  | .imports _ _ items, h => by simp [Stmt.unslotted, Stmt.reads, Stmt.defs]
  | .tryBlock bs, h => by
    simp only [Stmt.Made, Stmt.unslotted, Stmt.reads, Stmt.defs] at *
    exact Stmt.MadeAll.unslotted h.2.2
  | .ifBlock cs els, h => by
    simp only [Stmt.Made, Stmt.unslotted, Stmt.reads, Stmt.defs] at *
    have h1 := Stmt.MadeClauses.unslotted h.2.1
    have h2 := Stmt.MadeOpt.unslotted h.2.2.2
    exact ⟨⟨h1.1, h2.1⟩, fun d hd => (List.mem_append.1 hd).elim (h1.2 d) (h2.2 d)⟩
  | .elseClause b, h => by
    simp only [Stmt.Made, Stmt.unslotted, Stmt.reads, Stmt.defs] at *
    exact Stmt.MadeOpt.unslotted h.2
  | .whileBlock _ b els, h => by
    simp only [Stmt.Made, Stmt.unslotted, Stmt.reads, Stmt.defs] at *
    have h1 := Stmt.MadeOpt.unslotted h.2.2.1
    have h2 := Stmt.MadeOpt.unslotted h.2.2.2.2
    exact ⟨⟨h.1.noSlots, h1.1, h2.1⟩, fun d hd => (List.mem_append.1 hd).elim (h1.2 d) (h2.2 d)⟩
  | .forBlock _ _ rest, h => by
    simp only [Stmt.Made, Stmt.unslotted, Stmt.reads, Stmt.defs] at *
    have h1 := Stmt.MadeAll.unslotted h.2.2.2.2
    exact ⟨⟨h.2.2.1.noSlots, h1.1⟩, h1.2⟩
  | .static _, _ => by simp [Stmt.unslotted, Stmt.reads, Stmt.defs]
  | .line _, h => by simp only [Stmt.Made, Stmt.unslotted, Stmt.reads, Stmt.defs] at *; exact ⟨h.noSlots, by simp⟩
  | .text _ _, h => by
    simp only [Stmt.Made, Stmt.unslotted, Stmt.reads, Stmt.defs] at *
    obtain ⟨_, k, h⟩ := h
    exact ⟨nested_noSlots h, by simp⟩
  | .comment, _ => by simp [Stmt.unslotted, Stmt.reads, Stmt.defs]
  | .embed _, h => by simp only [Stmt.Made, Stmt.unslotted, Stmt.reads, Stmt.defs] at *; exact ⟨h.noSlots, by simp⟩
  | .exprBlock _, h => by simp only [Stmt.Made, Stmt.unslotted, Stmt.reads, Stmt.defs] at *; exact ⟨h.noSlots, by simp⟩
  | .assign _ _ _, h => by
    simp only [Stmt.Made, Stmt.unslotted, Stmt.reads, Stmt.defs] at *
    exact ⟨⟨h.2.2.noSlots, h.1.noSlots⟩, by simp⟩
  | .body ss, h => by
    simp only [Stmt.Made, Stmt.unslotted, Stmt.reads, Stmt.defs] at *
    exact Stmt.MadeAll.unslotted h.2
  | .pass, _ => by simp [Stmt.unslotted, Stmt.reads, Stmt.defs]
theorem Stmt.MadeAll.unslotted : ∀ {ss : List (Stmt P)}, Stmt.MadeAll M U ss →
    Stmt.readsAll (· = .none) ss ∧ ∀ d ∈ Stmt.defsAll ss, d.2.reads (· = .none)
  | [], _ => by simp [Stmt.readsAll, Stmt.defsAll]
  | s :: ss, h => by
    simp only [Stmt.MadeAll, Stmt.readsAll, Stmt.defsAll] at *
    have h1 := h.1.unslotted
    have h2 := Stmt.MadeAll.unslotted h.2
    exact ⟨⟨h1.1, h2.1⟩, fun d hd => (List.mem_append.1 hd).elim (h1.2 d) (h2.2 d)⟩
theorem Stmt.MadeOpt.unslotted : ∀ {o : Option (Stmt P)}, Stmt.MadeOpt M U o →
    Stmt.readsOpt (· = .none) o ∧ ∀ d ∈ Stmt.defsOpt o, d.2.reads (· = .none)
  | .none, _ => by simp [Stmt.readsOpt, Stmt.defsOpt]
  | .some s, h => by
    simp only [Stmt.MadeOpt, Stmt.readsOpt, Stmt.defsOpt] at *
    exact h.unslotted
theorem Stmt.MadeClause.unslotted : ∀ {c : Expr × Option (Stmt P)}, Stmt.MadeClause M U c →
    Stmt.readsClause (· = .none) c ∧ ∀ d ∈ Stmt.defsClause c, d.2.reads (· = .none)
  | (_, b), h => by
    simp only [Stmt.MadeClause, Stmt.readsClause, Stmt.defsClause] at *
    have h1 := Stmt.MadeOpt.unslotted h.2.2
    exact ⟨⟨h.1.noSlots, h1.1⟩, h1.2⟩
theorem Stmt.MadeClauses.unslotted : ∀ {cs : List (Expr × Option (Stmt P))}, Stmt.MadeClauses M U cs →
    Stmt.readsClauses (· = .none) cs ∧ ∀ d ∈ Stmt.defsClauses cs, d.2.reads (· = .none)
  | [], _ => by simp [Stmt.readsClauses, Stmt.defsClauses]
  | c :: cs, h => by
    simp only [Stmt.MadeClauses, Stmt.readsClauses, Stmt.defsClauses] at *
    have h1 := Stmt.MadeClause.unslotted h.1
    have h2 := Stmt.MadeClauses.unslotted h.2
    exact ⟨⟨h1.1, h2.1⟩, fun d hd => (List.mem_append.1 hd).elim (h1.2 d) (h2.2 d)⟩
end

/-! ### Second clauses of `for` -/

theorem Stmt.MadeAll.mem {ss : List (Stmt P)} (h : Stmt.MadeAll M U ss) : ∀ s ∈ ss, s.Made M U := by
  induction ss with
  | nil => simp
  | cons s ss ih =>
    simp only [Stmt.MadeAll] at h
    intro t ht
    rcases List.mem_cons.1 ht with rfl | ht
    · exact h.1
    · exact ih h.2 t ht

mutual
theorem Stmt.Made.tails : ∀ {s : Stmt P}, s.Made M U → s.tails Stmt.unslotted
  | .indent _, _ => by simp only [Stmt.tails]
  | .dedent _, _ => by simp only [Stmt.tails]
  | .xblock _ _ b, h => by simp only [Stmt.Made, Stmt.tails] at *; exact h.2.2.tails
  | .struct _ b, h => by simp only [Stmt.Made, Stmt.tails] at *; exact h.2.2.tails
  | .defn id name slot ba as b, h => by simp only [Stmt.Made, Stmt.tails] at *; exact h.2.2.2.2.2.2.tails
  | .imports _ _ items, h => by simp only [Stmt.tails]
  | .tryBlock bs, h => by simp only [Stmt.Made, Stmt.tails] at *; exact Stmt.MadeAll.tails h.2.2
  | .ifBlock cs els, h => by simp only [Stmt.Made, Stmt.tails] at *; exact ⟨Stmt.MadeClauses.tails h.2.1, Stmt.MadeOpt.tails h.2.2.2⟩
  | .elseClause b, h => by simp only [Stmt.Made, Stmt.tails] at *; exact Stmt.MadeOpt.tails h.2
  | .whileBlock _ b els, h => by simp only [Stmt.Made, Stmt.tails] at *; exact ⟨Stmt.MadeOpt.tails h.2.2.1, Stmt.MadeOpt.tails h.2.2.2.2⟩
  | .forBlock _ _ rest, h => by simp only [Stmt.Made, Stmt.tails] at *; exact Stmt.MadeFirst.tails h.2.2.2.2
  | .static _, _ => by simp only [Stmt.tails]
  | .line _, h => by simp only [Stmt.tails]
  | .text _ _, h => by simp only [Stmt.tails]
  | .comment, _ => by simp only [Stmt.tails]
  | .embed _, h => by simp only [Stmt.tails]
  | .exprBlock _, h => by simp only [Stmt.tails]
  | .assign _ _ _, h => by simp only [Stmt.tails]
  | .body ss, h => by simp only [Stmt.Made, Stmt.tails] at *; exact Stmt.MadeAll.tails h.2
  | .pass, _ => by simp only [Stmt.tails]
theorem Stmt.MadeAll.tails : ∀ {ss : List (Stmt P)}, Stmt.MadeAll M U ss → Stmt.tailsAll Stmt.unslotted ss
  | [], _ => by simp only [Stmt.tailsAll]
  | s :: ss, h => by simp only [Stmt.MadeAll, Stmt.tailsAll] at *; exact ⟨h.1.tails, Stmt.MadeAll.tails h.2⟩
theorem Stmt.MadeFirst.tails : ∀ {ss : List (Stmt P)}, Stmt.MadeAll M U ss → Stmt.tailsFirst Stmt.unslotted ss
  | [], _ => by simp only [Stmt.tailsFirst]
  | s :: ss, h => by
    simp only [Stmt.MadeAll, Stmt.tailsFirst] at *
    exact ⟨h.1.tails, fun t ht => (h.2.mem t ht).unslotted⟩
theorem Stmt.MadeOpt.tails : ∀ {o : Option (Stmt P)}, Stmt.MadeOpt M U o → Stmt.tailsOpt Stmt.unslotted o
  | .none, _ => by simp only [Stmt.tailsOpt]
  | .some s, h => by simp only [Stmt.MadeOpt, Stmt.tailsOpt] at *; exact h.tails
theorem Stmt.MadeClause.tails : ∀ {c : Expr × Option (Stmt P)}, Stmt.MadeClause M U c → Stmt.tailsClause Stmt.unslotted c
  | (_, b), h => by simp only [Stmt.MadeClause, Stmt.tailsClause] at *; exact Stmt.MadeOpt.tails h.2.2
theorem Stmt.MadeClauses.tails : ∀ {cs : List (Expr × Option (Stmt P))}, Stmt.MadeClauses M U cs → Stmt.tailsClauses Stmt.unslotted cs
  | [], _ => by simp only [Stmt.tailsClauses]
  | c :: cs, h => by
    simp only [Stmt.MadeClauses, Stmt.tailsClauses] at *
    exact ⟨Stmt.MadeClause.tails h.1, Stmt.MadeClauses.tails h.2⟩
end

/-! ### Slots that are written -/

mutual
theorem Target.writes_any : ∀ t : Target, t.writes (fun _ => True)
  | .var _ _ _ _ => by simp only [Target.writes]
  | .many ts => by simp only [Target.writes]; exact Target.writesAll_any ts
theorem Target.writesAll_any : ∀ ts : List Target, Target.writesAll (fun _ => True) ts
  | [] => by simp only [Target.writesAll]
  | t :: ts => by simp only [Target.writesAll]; exact ⟨Target.writes_any t, Target.writesAll_any ts⟩
end

mutual
theorem Stmt.writes_any : ∀ s : Stmt P, s.writes (fun _ => True)
  | .indent _ => by simp only [Stmt.writes]
  | .dedent _ => by simp only [Stmt.writes]
  | .xblock _ _ b => by simp only [Stmt.writes]; exact Stmt.writes_any b
  | .struct _ b => by simp only [Stmt.writes]; exact Stmt.writes_any b
  | .defn id name slot ba as b => by simp only [Stmt.writes]
  | .imports _ _ items => by
    simp only [Stmt.writes]
    intro i _
    cases i <;> simp [ImportItem.writes]
  | .tryBlock bs => by simp only [Stmt.writes]; exact Stmt.writesAll_any bs
  | .ifBlock cs els => by simp only [Stmt.writes]; exact ⟨Stmt.writesClauses_any cs, Stmt.writesOpt_any els⟩
  | .elseClause b => by simp only [Stmt.writes]; exact Stmt.writesOpt_any b
  | .whileBlock _ b els => by simp only [Stmt.writes]; exact ⟨Stmt.writesOpt_any b, Stmt.writesOpt_any els⟩
  | .forBlock t _ rest => by simp only [Stmt.writes]; exact ⟨Target.writes_any t, Stmt.writesAll_any rest⟩
  | .static _ => by simp only [Stmt.writes]
  | .line _ => by simp only [Stmt.writes]
  | .text _ _ => by simp only [Stmt.writes]
  | .comment => by simp only [Stmt.writes]
  | .embed _ => by simp only [Stmt.writes]
  | .exprBlock _ => by simp only [Stmt.writes]
  | .assign t _ _ => by simp only [Stmt.writes]; exact Target.writes_any t
  | .body ss => by simp only [Stmt.writes]; exact Stmt.writesAll_any ss
  | .pass => by simp only [Stmt.writes]
theorem Stmt.writesAll_any : ∀ ss : List (Stmt P), Stmt.writesAll (fun _ => True) ss
  | [] => by simp only [Stmt.writesAll]
  | s :: ss => by simp only [Stmt.writesAll]; exact ⟨Stmt.writes_any s, Stmt.writesAll_any ss⟩
theorem Stmt.writesOpt_any : ∀ o : Option (Stmt P), Stmt.writesOpt (fun _ => True) o
  | .none => by simp only [Stmt.writesOpt]
  | .some s => by simp only [Stmt.writesOpt]; exact Stmt.writes_any s
theorem Stmt.writesClause_any : ∀ c : Expr × Option (Stmt P), Stmt.writesClause (fun _ => True) c
  | (_, b) => by simp only [Stmt.writesClause]; exact Stmt.writesOpt_any b
theorem Stmt.writesClauses_any : ∀ cs : List (Expr × Option (Stmt P)), Stmt.writesClauses (fun _ => True) cs
  | [] => by simp only [Stmt.writesClauses]
  | c :: cs => by simp only [Stmt.writesClauses]; exact ⟨Stmt.writesClause_any c, Stmt.writesClauses_any cs⟩
end

end

section
variable {P X W : Type}

/-- Expansion of hypertags that only read the slots `K`. -/
theorem envAt_reads_blind (ops : PyOps P X W) (Γ : DefId → DefInfo P) {K : Slot → Prop}
    (hΓ : ∀ id, (Γ id).reads (Spec.Known K)) (n : Nat) : EnvBlind (fun _ => K) (envAt ops Γ n) := by
  induction n with
  | zero => exact ⟨fun _ _ _ _ _ _ _ k => ⟨rfl, k, fun _ h => nomatch h⟩, fun _ _ _ k => ⟨rfl, k, fun _ h => nomatch h⟩⟩
  | succ n ih =>
    refine ⟨fun hv b as kw σ => ?_, fun c => ?_⟩
    · show Blind _ _ (expandHyper (envAt ops Γ n) Γ hv b as kw σ)
      induction hv generalizing σ with
      | imported hv st ih' => exact ih' st
      | defn id =>
        exact (ih.frame σ).expandDef id _ (hΓ id) ⟨fun _ _ => trivial, fun _ _ => trivial, Stmt.writes_any _⟩
          (fun h => (h trivial).elim) b as kw
    · have F := ih.closed
      refine F.bind ?_ (fun body => F.bind (ih.expand _ _ _ _ _) (fun dom => F.bind (F.setIndent _ _)
        (fun _ => F.bind (F.py (by constructor)) (fun _ => F.pure _))))
      cases c.body <;> first
        | exact F.pure _
        | exact F.bind (F.strOf _) (fun _ => F.bind (F.newText _ _) (fun _ => F.pure _))

/-- A document whose statements and symbols are in `K`, from machines that agree on `K`. -/
theorem translRest_blind (ops : PyOps P X W) (Γ : DefId → DefInfo P) {K : Slot → Prop}
    (hΓ : ∀ id, (Γ id).reads (Spec.Known K)) (n : Nat) (σ : StateId) (doc : Document P)
    (h1 : Stmt.readsAll (Spec.Known K) doc.children) (h2 : ∀ x ∈ doc.slotsOut, K x.2) :
    Blind (fun _ => K) _ (translDocument (envAt ops Γ n) σ doc) := by
  have F := (envAt_reads_blind ops Γ hΓ n).frame σ
  have hsym : ∀ l : List (Str × Slot), (∀ x ∈ l, K x.2) → Blind (fun _ => K) _ (readSymbols σ l : Comp P X W _) := by
    intro l
    induction l with
    | nil => exact fun _ => F.pure _
    | cons a l ih =>
      obtain ⟨sym, sl⟩ := a
      intro hl
      refine F.bind (F.getSlot _ _ (by intro s hs; cases hs; exact hl _ List.mem_cons_self)) (fun v => F.bind (ih fun x hx => hl x (List.mem_cons_of_mem _ hx)) (fun d => ?_))
      cases v <;> exact F.pure _
  exact F.bind (F.setSlots _ (fun _ _ => trivial)) (fun _ => F.bind (F.translAll trivial doc.children h1 (Stmt.writesAll_any _)) (fun _ =>
    F.bind (F.newNode _ _ _ _ _ _) (fun _ => F.bind (F.readNode _) (fun _ =>
      F.bind (F.writeNode _ _) (fun _ => F.bind (hsym _ h2) (fun _ => F.pure _))))))

theorem setSlots_append (σ : StateId) (a b : List (Slot × Val P)) (f : Unit → Comp P X W α) (M : Machine P W) :
    ∃ M1 : Machine P W, (setSlots σ (a ++ b) >>= f) M = (setSlots σ b >>= f) M1 ∧
      ∀ K : Slot → Prop, (∀ x ∈ a, ¬ K x.1) → Same (fun _ => K) M1 M := by
  induction a generalizing M with
  | nil => exact ⟨M, rfl, fun K _ => ⟨rfl, fun _ => rfl, fun _ _ _ => rfl⟩⟩
  | cons x a ih =>
    obtain ⟨sl, v⟩ := x
    obtain ⟨M1, e, hM⟩ := ih (setSlot (X := X) σ sl v M).2
    refine ⟨M1, ?_, fun K hK => ?_⟩
    · rw [← e]; rfl
    · have := hM K (fun x hx => hK x (List.mem_cons_of_mem _ hx))
      have hsl := hK _ List.mem_cons_self
      refine ⟨this.mem.trans rfl, fun τ => (this.indent τ).trans ?_, fun τ s hs => (this.values τ s hs).trans ?_⟩
      · simp only [setSlot, Machine.updState]; split <;> simp_all
      · have : s ≠ sl := fun h => hsl (h ▸ hs)
        simp only [setSlot, Machine.updState]
        split <;> simp_all

end
end Verif
