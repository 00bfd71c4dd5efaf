import Verif.Spec.Blocks
import Verif.Model.Analyse

/-! Predicates on slots may be weakened. -/

set_option linter.unusedSectionVars false

namespace Verif
open Py

section
variable {P : Type} {p q : Option Slot → Prop} (h : ∀ o, p o → q o)
include h

mutual
theorem Target.writes_mono : ∀ t : Target, t.writes p → t.writes q
  | .var _ _ _ _ => by simp only [Target.writes]; exact h _
  | .many ts => by simp only [Target.writes]; exact Target.writesAll_mono ts
theorem Target.writesAll_mono : ∀ ts : List Target, Target.writesAll p ts → Target.writesAll q ts
  | [] => by simp only [Target.writesAll]; exact id
  | t :: ts => by
    simp only [Target.writesAll]
    exact fun w => ⟨Target.writes_mono t w.1, Target.writesAll_mono ts w.2⟩
end

theorem ImportItem.writes_mono (i : ImportItem P) (w : i.writes p) : i.writes q := by
  cases i with
  | wild l => exact fun o ho => h o (w o ho)
  | name _ _ _ => exact h _ w
  | cntx _ _ _ => exact h _ w

mutual
theorem Stmt.writes_mono : ∀ s : Stmt P, s.writes p → s.writes q
  | .static _ => by simp only [Stmt.writes]; exact id
  | .indent _ => by simp only [Stmt.writes]; exact id
  | .dedent _ => by simp only [Stmt.writes]; exact id
  | .line _ => by simp only [Stmt.writes]; exact id
  | .xblock _ _ b => by simp only [Stmt.writes]; exact Stmt.writes_mono b
  | .text _ _ => by simp only [Stmt.writes]; exact id
  | .comment => by simp only [Stmt.writes]; exact id
  | .embed _ => by simp only [Stmt.writes]; exact id
  | .struct _ b => by simp only [Stmt.writes]; exact Stmt.writes_mono b
  | .defn _ _ slot _ _ _ => by simp only [Stmt.writes]; exact h _
  | .imports _ _ items => by
    simp only [Stmt.writes]; exact fun w i hi => ImportItem.writes_mono h i (w i hi)
  | .tryBlock bs => by simp only [Stmt.writes]; exact Stmt.writesAll_mono bs
  | .ifBlock cs els => by
    simp only [Stmt.writes]
    exact fun w => ⟨Stmt.writesClauses_mono cs w.1, Stmt.writesOpt_mono els w.2⟩
  | .elseClause b => by simp only [Stmt.writes]; exact Stmt.writesOpt_mono b
  | .whileBlock _ b els => by
    simp only [Stmt.writes]
    exact fun w => ⟨Stmt.writesOpt_mono b w.1, Stmt.writesOpt_mono els w.2⟩
  | .forBlock t _ rest => by
    simp only [Stmt.writes]
    exact fun w => ⟨Target.writes_mono h t w.1, Stmt.writesAll_mono rest w.2⟩
  | .exprBlock _ => by simp only [Stmt.writes]; exact id
  | .assign t _ _ => by simp only [Stmt.writes]; exact Target.writes_mono h t
  | .body ss => by simp only [Stmt.writes]; exact Stmt.writesAll_mono ss
  | .pass => by simp only [Stmt.writes]; exact id
theorem Stmt.writesAll_mono : ∀ ss : List (Stmt P), Stmt.writesAll p ss → Stmt.writesAll q ss
  | [] => by simp only [Stmt.writesAll]; exact id
  | s :: ss => by
    simp only [Stmt.writesAll]
    exact fun w => ⟨Stmt.writes_mono s w.1, Stmt.writesAll_mono ss w.2⟩
theorem Stmt.writesOpt_mono : ∀ o : Option (Stmt P), Stmt.writesOpt p o → Stmt.writesOpt q o
  | .none => by simp only [Stmt.writesOpt]; exact id
  | some s => by simp only [Stmt.writesOpt]; exact Stmt.writes_mono s
theorem Stmt.writesClause_mono : ∀ c : Expr × Option (Stmt P), Stmt.writesClause p c →
    Stmt.writesClause q c
  | (_, b) => by simp only [Stmt.writesClause]; exact Stmt.writesOpt_mono b
theorem Stmt.writesClauses_mono : ∀ cs : List (Expr × Option (Stmt P)), Stmt.writesClauses p cs →
    Stmt.writesClauses q cs
  | [] => by simp only [Stmt.writesClauses]; exact id
  | c :: cs => by
    simp only [Stmt.writesClauses]
    exact fun w => ⟨Stmt.writesClause_mono c w.1, Stmt.writesClauses_mono cs w.2⟩
end

theorem DefInfo.writes_mono {d : DefInfo P} (w : d.writes p) : d.writes q :=
  ⟨fun a ha => h _ (w.1 a ha), fun a ha => h _ (w.2.1 a ha), Stmt.writes_mono h _ w.2.2⟩

end

section
variable {P : Type} {p q : Option Slot → Prop}

theorem Stmt.writesAll_iff (ss : List (Stmt P)) : Stmt.writesAll p ss ↔ ∀ s ∈ ss, s.writes p := by
  induction ss with
  | nil => simp [Stmt.writesAll]
  | cons s ss ih => simp [Stmt.writesAll, ih]

theorem Stmt.readsAll_iff (ss : List (Stmt P)) : Stmt.readsAll p ss ↔ ∀ s ∈ ss, s.reads p := by
  induction ss with
  | nil => simp [Stmt.readsAll]
  | cons s ss ih => simp [Stmt.readsAll, ih]

theorem Stmt.mem_defsAll (ss : List (Stmt P)) (d) : d ∈ Stmt.defsAll ss ↔ ∃ s ∈ ss, d ∈ s.defs := by
  induction ss with
  | nil => simp [Stmt.defsAll]
  | cons s ss ih => simp [Stmt.defsAll, ih]

end
end Verif
