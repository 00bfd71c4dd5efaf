import Verif.Lemmas.FitLoad
import Verif.Lemmas.Unanalysed

/-! Consequences of being well made. -/

set_option linter.unusedSectionVars false

namespace Verif
open Py Spec

section
variable {P : Type} {M : Marks} {U : Uni}

mutual
theorem Stmt.Made.isBlock : ∀ {s : Stmt P}, s.Made M U → s.role ≠ .piece → s.isBlock
  | .indent _, _, hr => absurd rfl hr
  | .dedent _, _, hr => absurd rfl hr
  | .xblock _ _ b, h, _ => by
    simp only [Stmt.Made, Stmt.isBlock] at *
    exact h.2.2.isBlock (by rcases h.2.1 with h | h <;> simp [h])
  | .struct _ b, h, _ => by
    simp only [Stmt.Made, Stmt.isBlock] at *
    exact h.2.2.isBlock (by rcases h.2.1 with h | h <;> simp [h])
  | .tryBlock bs, h, _ => by
    simp only [Stmt.Made, Stmt.isBlock] at *
    refine Stmt.MadeAll.allBlocks h.2.2 ?_
    intro s hs
    rw [← List.take_append_drop 1 bs] at hs
    rcases List.mem_append.1 hs with hs | hs
    · exact (h.1 s hs).1
    · simp [h.2.1 s hs]
  | .ifBlock cs els, h, _ => by
    simp only [Stmt.Made, Stmt.isBlock] at *
    exact ⟨Stmt.MadeClauses.blockClauses h.2.1, Stmt.MadeOpt.blockOpt h.2.2.2 (fun s hs => by simp [h.2.2.1 s hs])⟩
  | .elseClause b, h, _ => by
    simp only [Stmt.Made, Stmt.isBlock] at *
    exact Stmt.MadeOpt.blockOpt h.2 (fun s hs => by rcases h.1 s hs with h | h <;> simp [h])
  | .whileBlock _ b els, h, _ => by
    simp only [Stmt.Made, Stmt.isBlock] at *
    exact ⟨Stmt.MadeOpt.blockOpt h.2.2.1 (fun s hs => by rcases h.2.1 s hs with h | h <;> simp [h]),
      Stmt.MadeOpt.blockOpt h.2.2.2.2 (fun s hs => by simp [h.2.2.2.1 s hs])⟩
  | .forBlock _ _ rest, h, _ => by
    simp only [Stmt.Made, Stmt.isBlock] at *
    obtain ⟨-, -, -, ⟨b, els, rfl, h1, h2⟩, h3⟩ := h
    refine Stmt.MadeAll.allBlocks h3 ?_
    intro s hs
    simp only [List.mem_append, Option.mem_toList] at hs
    rcases hs with hs | hs
    · rcases h1 s hs with h | h <;> simp [h]
    · simp [h2 s hs]
  | .static _, _, _ => by simp only [Stmt.isBlock]
  | .line _, _, _ => by simp only [Stmt.isBlock]
  | .text _ _, _, _ => by simp only [Stmt.isBlock]
  | .comment, _, _ => by simp only [Stmt.isBlock]
  | .embed _, _, _ => by simp only [Stmt.isBlock]
  | .defn _ _ _ _ _ _, _, _ => by simp only [Stmt.isBlock]
  | .imports _ _ _, _, _ => by simp only [Stmt.isBlock]
  | .exprBlock _, _, _ => by simp only [Stmt.isBlock]
  | .assign _ _ _, _, _ => by simp only [Stmt.isBlock]
  | .body _, _, _ => by simp only [Stmt.isBlock]
  | .pass, _, _ => by simp only [Stmt.isBlock]
theorem Stmt.MadeAll.allBlocks : ∀ {ss : List (Stmt P)}, Stmt.MadeAll M U ss → (∀ s ∈ ss, s.role ≠ .piece) → Stmt.allBlocks ss
  | [], _, _ => by simp only [Stmt.allBlocks]
  | s :: ss, h, hr => by
    simp only [Stmt.MadeAll, Stmt.allBlocks] at *
    exact ⟨h.1.isBlock (hr s (by simp)), Stmt.MadeAll.allBlocks h.2 (fun t ht => hr t (by simp [ht]))⟩
theorem Stmt.MadeOpt.blockOpt : ∀ {o : Option (Stmt P)}, Stmt.MadeOpt M U o → (∀ s ∈ o, s.role ≠ .piece) → Stmt.blockOpt o
  | .none, _, _ => by simp only [Stmt.blockOpt]
  | .some s, h, hr => by
    simp only [Stmt.MadeOpt, Stmt.blockOpt] at *
    exact h.isBlock (hr s rfl)
theorem Stmt.MadeClause.blockClause : ∀ {c : Expr × Option (Stmt P)}, Stmt.MadeClause M U c → Stmt.blockClause c
  | (_, b), h => by
    simp only [Stmt.MadeClause, Stmt.blockClause] at *
    exact Stmt.MadeOpt.blockOpt h.2.2 (fun s hs => by rcases h.2.1 s hs with h | h <;> simp [h])
theorem Stmt.MadeClauses.blockClauses : ∀ {cs : List (Expr × Option (Stmt P))}, Stmt.MadeClauses M U cs → Stmt.blockClauses cs
  | [], _ => by simp only [Stmt.blockClauses]
  | c :: cs, h => by
    simp only [Stmt.MadeClauses, Stmt.blockClauses] at *
    exact ⟨Stmt.MadeClause.blockClause h.1, Stmt.MadeClauses.blockClauses h.2⟩
end

mutual
theorem Target.Made.writes : ∀ {t : Target}, t.Made → t.writes (· = .none)
  | .var _ _ _ _, h => by simp only [Target.Made, Target.writes] at *; exact h.2.2
  | .many ts, h => by simp only [Target.Made, Target.writes] at *; exact Target.MadeAll.writesAll h.2
theorem Target.MadeAll.writesAll : ∀ {ts : List Target}, Target.MadeAll ts → Target.writesAll (· = .none) ts
  | [], _ => by simp only [Target.writesAll]
  | t :: ts, h => by simp only [Target.MadeAll, Target.writesAll] at *; exact ⟨h.1.writes, Target.MadeAll.writesAll h.2⟩
end

mutual
theorem Stmt.Made.fresh : ∀ {s : Stmt P}, s.Made M U → s.unanalysed
  | .indent _, _ => by simp [Stmt.unanalysed, Stmt.writes, Stmt.defs]
  | .dedent _, _ => by simp [Stmt.unanalysed, Stmt.writes, Stmt.defs]
  | .xblock _ _ b, h => by
    simp only [Stmt.Made, Stmt.unanalysed, Stmt.writes, Stmt.defs] at *
    exact h.2.2.fresh
  | .struct _ b, h => by
    simp only [Stmt.Made, Stmt.unanalysed, Stmt.writes, Stmt.defs] at *
    exact h.2.2.fresh
  | .defn id name slot ba as b, h => by
    simp only [Stmt.Made, Stmt.unanalysed, Stmt.writes, Stmt.defs] at *
    have hb := h.2.2.2.2.2.2.fresh
    refine ⟨h.2.1, ?_⟩
    intro d hd
    rcases List.mem_cons.1 hd with rfl | hd
    · exact ⟨fun a ha => (h.2.2.1 a ha).1.2.1, fun a ha => (h.2.2.2.1 a ha).2.1, hb.1⟩
    · exact hb.2 d hd
  | .imports _ _ items, h => by
    simp only [Stmt.Made, Stmt.unanalysed, Stmt.writes, Stmt.defs] at *
    refine ⟨fun i hi => ?_, by simp⟩
    have := h.2.2.2 i hi
    cases i <;> simp only [ImportItem.Made] at this
    · simp [ImportItem.writes, this.2, wildSlots]
    · simp [ImportItem.writes, this.2.2.2]
    · simp [ImportItem.writes, this.2.2.2]
  | .tryBlock bs, h => by
    simp only [Stmt.Made, Stmt.unanalysed, Stmt.writes, Stmt.defs] at *
    exact Stmt.MadeAll.fresh h.2.2
  | .ifBlock cs els, h => by
    simp only [Stmt.Made, Stmt.unanalysed, Stmt.writes, Stmt.defs] at *
    have h1 := Stmt.MadeClauses.fresh h.2.1
    have h2 := Stmt.MadeOpt.fresh h.2.2.2
    exact ⟨⟨h1.1, h2.1⟩, fun d hd => (List.mem_append.1 hd).elim (h1.2 d) (h2.2 d)⟩
  | .elseClause b, h => by
    simp only [Stmt.Made, Stmt.unanalysed, Stmt.writes, Stmt.defs] at *
    exact Stmt.MadeOpt.fresh h.2
  | .whileBlock _ b els, h => by
    simp only [Stmt.Made, Stmt.unanalysed, Stmt.writes, Stmt.defs] at *
    have h1 := Stmt.MadeOpt.fresh h.2.2.1
    have h2 := Stmt.MadeOpt.fresh h.2.2.2.2
    exact ⟨⟨h1.1, h2.1⟩, fun d hd => (List.mem_append.1 hd).elim (h1.2 d) (h2.2 d)⟩
  | .forBlock _ _ rest, h => by
    simp only [Stmt.Made, Stmt.unanalysed, Stmt.writes, Stmt.defs] at *
    have h1 := Stmt.MadeAll.fresh h.2.2.2.2
    exact ⟨⟨h.2.1.writes, h1.1⟩, h1.2⟩
  | .static _, _ => by simp [Stmt.unanalysed, Stmt.writes, Stmt.defs]
  | .line _, _ => by simp [Stmt.unanalysed, Stmt.writes, Stmt.defs]
  | .text _ _, _ => by simp [Stmt.unanalysed, Stmt.writes, Stmt.defs]
  | .comment, _ => by simp [Stmt.unanalysed, Stmt.writes, Stmt.defs]
  | .embed _, _ => by simp [Stmt.unanalysed, Stmt.writes, Stmt.defs]
  | .exprBlock _, _ => by simp [Stmt.unanalysed, Stmt.writes, Stmt.defs]
  | .assign _ _ _, h => by
    simp only [Stmt.Made, Stmt.unanalysed, Stmt.writes, Stmt.defs] at *
    exact ⟨h.1.writes, by simp⟩
  | .body ss, h => by
    simp only [Stmt.Made, Stmt.unanalysed, Stmt.writes, Stmt.defs] at *
    exact Stmt.MadeAll.fresh h.2
  | .pass, _ => by simp [Stmt.unanalysed, Stmt.writes, Stmt.defs]
theorem Stmt.MadeAll.fresh : ∀ {ss : List (Stmt P)}, Stmt.MadeAll M U ss →
    Stmt.writesAll (· = .none) ss ∧ ∀ d ∈ Stmt.defsAll ss, d.2.writes (· = .none)
  | [], _ => by simp [Stmt.writesAll, Stmt.defsAll]
  | s :: ss, h => by
    simp only [Stmt.MadeAll, Stmt.writesAll, Stmt.defsAll] at *
    have h1 := h.1.fresh
    have h2 := Stmt.MadeAll.fresh h.2
    exact ⟨⟨h1.1, h2.1⟩, fun d hd => (List.mem_append.1 hd).elim (h1.2 d) (h2.2 d)⟩
theorem Stmt.MadeOpt.fresh : ∀ {o : Option (Stmt P)}, Stmt.MadeOpt M U o →
    Stmt.writesOpt (· = .none) o ∧ ∀ d ∈ Stmt.defsOpt o, d.2.writes (· = .none)
  | .none, _ => by simp [Stmt.writesOpt, Stmt.defsOpt]
  | .some s, h => by
    simp only [Stmt.MadeOpt, Stmt.writesOpt, Stmt.defsOpt] at *
    exact h.fresh
theorem Stmt.MadeClause.fresh : ∀ {c : Expr × Option (Stmt P)}, Stmt.MadeClause M U c →
    Stmt.writesClause (· = .none) c ∧ ∀ d ∈ Stmt.defsClause c, d.2.writes (· = .none)
  | (_, b), h => by
    simp only [Stmt.MadeClause, Stmt.writesClause, Stmt.defsClause] at *
    exact Stmt.MadeOpt.fresh h.2.2
theorem Stmt.MadeClauses.fresh : ∀ {cs : List (Expr × Option (Stmt P))}, Stmt.MadeClauses M U cs →
    Stmt.writesClauses (· = .none) cs ∧ ∀ d ∈ Stmt.defsClauses cs, d.2.writes (· = .none)
  | [], _ => by simp [Stmt.writesClauses, Stmt.defsClauses]
  | c :: cs, h => by
    simp only [Stmt.MadeClauses, Stmt.writesClauses, Stmt.defsClauses] at *
    have h1 := Stmt.MadeClause.fresh h.1
    have h2 := Stmt.MadeClauses.fresh h.2
    exact ⟨⟨h1.1, h2.1⟩, fun d hd => (List.mem_append.1 hd).elim (h1.2 d) (h2.2 d)⟩
end

mutual
/-- Bodies of definitions are well made. -/
theorem Stmt.Made.defined : ∀ {s : Stmt P}, s.Made M U → ∀ d ∈ s.defs, d.2.body.isBody ∧ d.2.body.Made M U
  | .xblock _ _ b, h => by
    simp only [Stmt.Made, Stmt.defs] at *
    exact h.2.2.defined
  | .struct _ b, h => by
    simp only [Stmt.Made, Stmt.defs] at *
    exact h.2.2.defined
  | .defn id name slot ba as b, h => by
    simp only [Stmt.Made, Stmt.defs] at *
    have hb := h.2.2.2.2.2.2.defined
    intro d hd
    rcases List.mem_cons.1 hd with rfl | hd
    · exact ⟨h.2.2.2.2.2.1, h.2.2.2.2.2.2⟩
    · exact hb d hd
  | .tryBlock bs, h => by
    simp only [Stmt.Made, Stmt.defs] at *
    exact Stmt.MadeAll.defined h.2.2
  | .ifBlock cs els, h => by
    simp only [Stmt.Made, Stmt.defs] at *
    have h1 := Stmt.MadeClauses.defined h.2.1
    have h2 := Stmt.MadeOpt.defined h.2.2.2
    exact fun d hd => (List.mem_append.1 hd).elim (h1 d) (h2 d)
  | .elseClause b, h => by
    simp only [Stmt.Made, Stmt.defs] at *
    exact Stmt.MadeOpt.defined h.2
  | .whileBlock _ b els, h => by
    simp only [Stmt.Made, Stmt.defs] at *
    have h1 := Stmt.MadeOpt.defined h.2.2.1
    have h2 := Stmt.MadeOpt.defined h.2.2.2.2
    exact fun d hd => (List.mem_append.1 hd).elim (h1 d) (h2 d)
  | .forBlock _ _ rest, h => by
    simp only [Stmt.Made, Stmt.defs] at *
    exact Stmt.MadeAll.defined h.2.2.2.2
  | .body ss, h => by
    simp only [Stmt.Made, Stmt.defs] at *
    exact Stmt.MadeAll.defined h.2
  | .indent _, _ => by simp [Stmt.defs]
  | .dedent _, _ => by simp [Stmt.defs]
  | .imports _ _ _, _ => by simp [Stmt.defs]
  | .assign _ _ _, _ => by simp [Stmt.defs]
  | .static _, _ => by simp [Stmt.defs]
  | .line _, _ => by simp [Stmt.defs]
  | .text _ _, _ => by simp [Stmt.defs]
  | .comment, _ => by simp [Stmt.defs]
  | .embed _, _ => by simp [Stmt.defs]
  | .exprBlock _, _ => by simp [Stmt.defs]
  | .pass, _ => by simp [Stmt.defs]
theorem Stmt.MadeAll.defined : ∀ {ss : List (Stmt P)}, Stmt.MadeAll M U ss →
    ∀ d ∈ Stmt.defsAll ss, d.2.body.isBody ∧ d.2.body.Made M U
  | [], _ => by simp [Stmt.defsAll]
  | s :: ss, h => by
    simp only [Stmt.MadeAll, Stmt.defsAll] at *
    have h1 := h.1.defined
    have h2 := Stmt.MadeAll.defined h.2
    exact fun d hd => (List.mem_append.1 hd).elim (h1 d) (h2 d)
theorem Stmt.MadeOpt.defined : ∀ {o : Option (Stmt P)}, Stmt.MadeOpt M U o →
    ∀ d ∈ Stmt.defsOpt o, d.2.body.isBody ∧ d.2.body.Made M U
  | .none, _ => by simp [Stmt.defsOpt]
  | .some s, h => by
    simp only [Stmt.MadeOpt, Stmt.defsOpt] at *
    exact h.defined
theorem Stmt.MadeClause.defined : ∀ {c : Expr × Option (Stmt P)}, Stmt.MadeClause M U c →
    ∀ d ∈ Stmt.defsClause c, d.2.body.isBody ∧ d.2.body.Made M U
  | (_, b), h => by
    simp only [Stmt.MadeClause, Stmt.defsClause] at *
    exact Stmt.MadeOpt.defined h.2.2
theorem Stmt.MadeClauses.defined : ∀ {cs : List (Expr × Option (Stmt P))}, Stmt.MadeClauses M U cs →
    ∀ d ∈ Stmt.defsClauses cs, d.2.body.isBody ∧ d.2.body.Made M U
  | [], _ => by simp [Stmt.defsClauses]
  | c :: cs, h => by
    simp only [Stmt.MadeClauses, Stmt.defsClauses] at *
    have h1 := Stmt.MadeClause.defined h.1
    have h2 := Stmt.MadeClauses.defined h.2
    exact fun d hd => (List.mem_append.1 hd).elim (h1 d) (h2 d)
end

theorem Stmt.madeAll_iff (ss : List (Stmt P)) : Stmt.MadeAll M U ss ↔ ∀ s ∈ ss, s.Made M U := by
  induction ss with
  | nil => simp [Stmt.MadeAll]
  | cons s ss ih => simp [Stmt.MadeAll, ih]

theorem Stmt.isBody.role_ne {s : Stmt P} (h : s.isBody) : s.role ≠ .piece := by
  rcases h with h | h <;> simp [h]

end
end Verif
