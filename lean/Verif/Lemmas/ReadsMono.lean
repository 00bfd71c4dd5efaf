import Verif.Spec.Blocks

/-! A weaker condition on the slots that are read. -/

namespace Verif
open Py

section
variable {P : Type} {p q : Option Slot → Prop} (h : ∀ o, p o → q o)
include h

mutual
theorem Expr.reads_mono : ∀ e : Expr, e.reads p → e.reads q
  | .root _ e => by simp only [Expr.reads]; exact Expr.reads_mono e
  | .tagUse _ _ => by simp only [Expr.reads]; exact h _
  | .varUse _ _ => by simp only [Expr.reads]; exact h _
  | .factor a ts _ => by simp only [Expr.reads]; exact fun w => ⟨Expr.reads_mono a w.1, Tail.readsAll_mono ts w.2⟩
  | .chain _ a _ es => by simp only [Expr.reads]; exact fun w => ⟨Expr.reads_mono a w.1, Expr.readsAll_mono es w.2⟩
  | .concat es => by simp only [Expr.reads]; exact Expr.readsAll_mono es
  | .bits _ a es => by simp only [Expr.reads]; exact fun w => ⟨Expr.reads_mono a w.1, Expr.readsAll_mono es w.2⟩
  | .pipeline a es => by simp only [Expr.reads]; exact fun w => ⟨Expr.reads_mono a w.1, Expr.readsAll_mono es w.2⟩
  | .notTest _ e => by simp only [Expr.reads]; exact Expr.reads_mono e
  | .andTest a es => by simp only [Expr.reads]; exact fun w => ⟨Expr.reads_mono a w.1, Expr.readsAll_mono es w.2⟩
  | .orTest a es => by simp only [Expr.reads]; exact fun w => ⟨Expr.reads_mono a w.1, Expr.readsAll_mono es w.2⟩
  | .ifElse x t y => by
    simp only [Expr.reads]
    exact fun w => ⟨Expr.reads_mono x w.1, Expr.reads_mono t w.2.1, Expr.readsOpt_mono y w.2.2⟩
  | .list es => by simp only [Expr.reads]; exact Expr.readsAll_mono es
  | .tuple es => by simp only [Expr.reads]; exact Expr.readsAll_mono es
  | .set es => by simp only [Expr.reads]; exact Expr.readsAll_mono es
  | .dict es => by simp only [Expr.reads]; exact Expr.readsAll_mono es
  | .format es => by simp only [Expr.reads]; exact Expr.readsAll_mono es
  | .static _ => by simp only [Expr.reads]; exact id
  | .strLit _ => by simp only [Expr.reads]; exact id
  | .number _ => by simp only [Expr.reads]; exact id
  | .boolean _ => by simp only [Expr.reads]; exact id
  | .noneLit => by simp only [Expr.reads]; exact id
  | .sliceNone => by simp only [Expr.reads]; exact id
theorem Expr.readsAll_mono : ∀ es : List Expr, Expr.readsAll p es → Expr.readsAll q es
  | [] => by simp only [Expr.readsAll]; exact id
  | e :: es => by simp only [Expr.readsAll]; exact fun w => ⟨Expr.reads_mono e w.1, Expr.readsAll_mono es w.2⟩
theorem Expr.readsOpt_mono : ∀ o : Option Expr, Expr.readsOpt p o → Expr.readsOpt q o
  | .none => by simp only [Expr.readsOpt]; exact id
  | some e => by simp only [Expr.readsOpt]; exact Expr.reads_mono e
theorem Tail.readsAll_mono : ∀ ts : List Tail, Tail.readsAll p ts → Tail.readsAll q ts
  | [] => by simp only [Tail.readsAll]; exact id
  | t :: ts => by simp only [Tail.readsAll]; exact fun w => ⟨Tail.reads_mono t w.1, Tail.readsAll_mono ts w.2⟩
theorem Tail.reads_mono : ∀ t : Tail, t.reads p → t.reads q
  | .call _ es => by simp only [Tail.reads]; exact Expr.readsAll_mono es
  | .partialCall _ es => by simp only [Tail.reads]; exact Expr.readsAll_mono es
  | .index es => by simp only [Tail.reads]; exact Expr.readsAll_mono es
  | .member _ => by simp only [Tail.reads]; exact id
end

theorem Line.reads_mono (l : Line) (w : l.reads p) : l.reads q := by
  cases l with
  | verbat _ => trivial
  | normal ps => exact Expr.readsAll_mono h ps w
  | markup ps => exact Expr.readsAll_mono h ps w

theorem TextItem.reads_mono (i : TextItem) (w : i.reads p) : i.reads q := by
  cases i with
  | line l => exact Line.reads_mono h l w
  | _ => trivial

theorem TagExp.reads_mono (t : TagExp) (w : t.reads p) : t.reads q := by
  cases t with
  | tag n s us ns => exact ⟨Expr.readsAll_mono h us w.1, fun n hn => Expr.reads_mono h n.2 (w.2.1 n hn), h _ w.2.2⟩
  | null => trivial

mutual
theorem Target.reads_mono : ∀ t : Target, t.reads p → t.reads q
  | .var _ _ _ _ => by simp only [Target.reads]; exact fun w k => h _ (w k)
  | .many ts => by simp only [Target.reads]; exact Target.readsAll_mono ts
theorem Target.readsAll_mono : ∀ ts : List Target, Target.readsAll p ts → Target.readsAll q ts
  | [] => by simp only [Target.readsAll]; exact id
  | t :: ts => by simp only [Target.readsAll]; exact fun w => ⟨Target.reads_mono t w.1, Target.readsAll_mono ts w.2⟩
end

mutual
theorem Stmt.reads_mono : ∀ s : Stmt P, s.reads p → s.reads q
  | .static _ => by simp only [Stmt.reads]; exact id
  | .indent _ => by simp only [Stmt.reads]; exact id
  | .dedent _ => by simp only [Stmt.reads]; exact id
  | .line l => by simp only [Stmt.reads]; exact Line.reads_mono h l
  | .xblock _ _ b => by simp only [Stmt.reads]; exact Stmt.reads_mono b
  | .text _ is => by simp only [Stmt.reads]; exact fun w i hi => TextItem.reads_mono h i (w i hi)
  | .comment => by simp only [Stmt.reads]; exact id
  | .embed e => by simp only [Stmt.reads]; exact Expr.reads_mono h e
  | .struct ts b => by
    simp only [Stmt.reads]; exact fun w => ⟨fun t ht => TagExp.reads_mono h t (w.1 t ht), Stmt.reads_mono b w.2⟩
  | .defn _ _ _ _ _ _ => by simp only [Stmt.reads]; exact id
  | .imports _ _ _ => by simp only [Stmt.reads]; exact id
  | .tryBlock bs => by simp only [Stmt.reads]; exact Stmt.readsAll_mono bs
  | .ifBlock cs els => by
    simp only [Stmt.reads]; exact fun w => ⟨Stmt.readsClauses_mono cs w.1, Stmt.readsOpt_mono els w.2⟩
  | .elseClause b => by simp only [Stmt.reads]; exact Stmt.readsOpt_mono b
  | .whileBlock t b els => by
    simp only [Stmt.reads]
    exact fun w => ⟨Expr.reads_mono h t w.1, Stmt.readsOpt_mono b w.2.1, Stmt.readsOpt_mono els w.2.2⟩
  | .forBlock _ e rest => by
    simp only [Stmt.reads]; exact fun w => ⟨Expr.reads_mono h e w.1, Stmt.readsAll_mono rest w.2⟩
  | .exprBlock e => by simp only [Stmt.reads]; exact Expr.reads_mono h e
  | .assign t _ e => by
    simp only [Stmt.reads]; exact fun w => ⟨Expr.reads_mono h e w.1, Target.reads_mono h t w.2⟩
  | .body ss => by simp only [Stmt.reads]; exact Stmt.readsAll_mono ss
  | .pass => by simp only [Stmt.reads]; exact id
theorem Stmt.readsAll_mono : ∀ ss : List (Stmt P), Stmt.readsAll p ss → Stmt.readsAll q ss
  | [] => by simp only [Stmt.readsAll]; exact id
  | s :: ss => by simp only [Stmt.readsAll]; exact fun w => ⟨Stmt.reads_mono s w.1, Stmt.readsAll_mono ss w.2⟩
theorem Stmt.readsOpt_mono : ∀ o : Option (Stmt P), Stmt.readsOpt p o → Stmt.readsOpt q o
  | .none => by simp only [Stmt.readsOpt]; exact id
  | some s => by simp only [Stmt.readsOpt]; exact Stmt.reads_mono s
theorem Stmt.readsClause_mono : ∀ c : Expr × Option (Stmt P), Stmt.readsClause p c → Stmt.readsClause q c
  | (t, b) => by simp only [Stmt.readsClause]; exact fun w => ⟨Expr.reads_mono h t w.1, Stmt.readsOpt_mono b w.2⟩
theorem Stmt.readsClauses_mono : ∀ cs : List (Expr × Option (Stmt P)), Stmt.readsClauses p cs → Stmt.readsClauses q cs
  | [] => by simp only [Stmt.readsClauses]; exact id
  | c :: cs => by
    simp only [Stmt.readsClauses]; exact fun w => ⟨Stmt.readsClause_mono c w.1, Stmt.readsClauses_mono cs w.2⟩
end

end
end Verif
