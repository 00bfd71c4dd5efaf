import Verif.Lemmas.Part

/-! Scripts as created by the parser: no slots. -/

set_option linter.unusedSectionVars false

namespace Verif
open Py

section
variable {P : Type}

mutual
theorem Stmt.raw_tails : ∀ s : Stmt P, Raw True s → s.tails (Raw True)
  | .xblock _ _ b, ⟨_, h1, h2⟩ => by
    simp only [Stmt.writes, Stmt.defs, Stmt.tails] at *; exact Stmt.raw_tails b ⟨trivial, h1, h2⟩
  | .struct _ b, ⟨_, h1, h2⟩ => by
    simp only [Stmt.writes, Stmt.defs, Stmt.tails] at *; exact Stmt.raw_tails b ⟨trivial, h1, h2⟩
  | .defn id _ _ _ _ b, ⟨_, h1, h2⟩ => by
    simp only [Stmt.writes, Stmt.defs, Stmt.tails] at *
    exact Stmt.raw_tails b ⟨trivial, (h2 _ (List.mem_cons_self ..)).2.2,
      fun d hd => h2 d (List.mem_cons_of_mem _ hd)⟩
  | .tryBlock bs, ⟨_, h1, h2⟩ => by
    simp only [Stmt.writes, Stmt.defs, Stmt.tails] at *
    exact Stmt.raw_tailsAll bs h1 h2
  | .ifBlock cs els, ⟨_, h1, h2⟩ => by
    simp only [Stmt.writes, Stmt.defs, Stmt.tails] at *
    exact ⟨Stmt.raw_tailsClauses cs h1.1 (fun d hd => h2 d (by simp [hd])),
      Stmt.raw_tailsOpt els h1.2 (fun d hd => h2 d (by simp [hd]))⟩
  | .elseClause b, ⟨_, h1, h2⟩ => by
    simp only [Stmt.writes, Stmt.defs, Stmt.tails] at *
    exact Stmt.raw_tailsOpt b h1 h2
  | .whileBlock _ b els, ⟨_, h1, h2⟩ => by
    simp only [Stmt.writes, Stmt.defs, Stmt.tails] at *
    exact ⟨Stmt.raw_tailsOpt b h1.1 (fun d hd => h2 d (by simp [hd])),
      Stmt.raw_tailsOpt els h1.2 (fun d hd => h2 d (by simp [hd]))⟩
  | .forBlock _ _ rest, ⟨_, h1, h2⟩ => by
    simp only [Stmt.writes, Stmt.defs, Stmt.tails] at *
    exact Stmt.raw_tailsFirst rest h1.2 h2
  | .body ss, ⟨_, h1, h2⟩ => by
    simp only [Stmt.writes, Stmt.defs, Stmt.tails] at *
    exact Stmt.raw_tailsAll ss h1 h2
  | .static _, _ => by simp only [Stmt.tails]
  | .indent _, _ => by simp only [Stmt.tails]
  | .dedent _, _ => by simp only [Stmt.tails]
  | .line _, _ => by simp only [Stmt.tails]
  | .text _ _, _ => by simp only [Stmt.tails]
  | .comment, _ => by simp only [Stmt.tails]
  | .embed _, _ => by simp only [Stmt.tails]
  | .imports _ _ _, _ => by simp only [Stmt.tails]
  | .exprBlock _, _ => by simp only [Stmt.tails]
  | .assign _ _ _, _ => by simp only [Stmt.tails]
  | .pass, _ => by simp only [Stmt.tails]
theorem Stmt.raw_tailsAll : ∀ ss : List (Stmt P), Stmt.writesAll (· = none) ss →
    (∀ d ∈ Stmt.defsAll ss, d.2.writes (· = none)) → Stmt.tailsAll (Raw True) ss
  | [], _, _ => by simp only [Stmt.tailsAll]
  | s :: ss, h1, h2 => by
    simp only [Stmt.writesAll, Stmt.defsAll, Stmt.tailsAll] at *
    exact ⟨Stmt.raw_tails s ⟨trivial, h1.1, fun d hd => h2 d (by simp [hd])⟩,
      Stmt.raw_tailsAll ss h1.2 (fun d hd => h2 d (by simp [hd]))⟩
theorem Stmt.raw_tailsFirst : ∀ ss : List (Stmt P), Stmt.writesAll (· = none) ss →
    (∀ d ∈ Stmt.defsAll ss, d.2.writes (· = none)) → Stmt.tailsFirst (Raw True) ss
  | [], _, _ => by simp only [Stmt.tailsFirst]
  | s :: ss, h1, h2 => by
    simp only [Stmt.writesAll, Stmt.defsAll, Stmt.tailsFirst] at *
    refine ⟨Stmt.raw_tails s ⟨trivial, h1.1, fun d hd => h2 d (by simp [hd])⟩, fun t ht =>
      ⟨trivial, (Stmt.writesAll_iff ss).1 h1.2 t ht, fun d hd => h2 d ?_⟩⟩
    exact List.mem_append_right _ ((Stmt.mem_defsAll ss d).2 ⟨t, ht, hd⟩)
theorem Stmt.raw_tailsOpt : ∀ o : Option (Stmt P), Stmt.writesOpt (· = none) o →
    (∀ d ∈ Stmt.defsOpt o, d.2.writes (· = none)) → Stmt.tailsOpt (Raw True) o
  | .none, _, _ => by simp only [Stmt.tailsOpt]
  | some s, h1, h2 => by
    simp only [Stmt.writesOpt, Stmt.defsOpt, Stmt.tailsOpt] at *
    exact Stmt.raw_tails s ⟨trivial, h1, h2⟩
theorem Stmt.raw_tailsClause : ∀ o : Expr × Option (Stmt P), Stmt.writesClause (· = none) o →
    (∀ d ∈ Stmt.defsClause o, d.2.writes (· = none)) → Stmt.tailsClause (Raw True) o
  | (_, b), h1, h2 => by
    simp only [Stmt.writesClause, Stmt.defsClause, Stmt.tailsClause] at *
    exact Stmt.raw_tailsOpt b h1 h2
theorem Stmt.raw_tailsClauses : ∀ o : List (Expr × Option (Stmt P)),
    Stmt.writesClauses (· = none) o →
    (∀ d ∈ Stmt.defsClauses o, d.2.writes (· = none)) → Stmt.tailsClauses (Raw True) o
  | [], _, _ => by simp only [Stmt.tailsClauses]
  | c :: cs, h1, h2 => by
    simp only [Stmt.writesClauses, Stmt.defsClauses, Stmt.tailsClauses] at *
    exact ⟨Stmt.raw_tailsClause c h1.1 (fun d hd => h2 d (by simp [hd])),
      Stmt.raw_tailsClauses cs h1.2 (fun d hd => h2 d (by simp [hd]))⟩
end

end
end Verif
