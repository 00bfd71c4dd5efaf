import Verif.Lemmas.Made
import Verif.Props.Scripts
import Verif.Props.Blocks
import Verif.Props.Scope

/-! C83: scripts are well made. -/

set_option linter.unusedSectionVars false

namespace Verif
open Py Spec

/-! ### C83: what loading a script creates is well made -/

section
variable {P I X W : Type} {M : Marks} {U : Uni} [MarksApart M U] {names : Str → Option Char} {script : Str}

/-- Any script that can be loaded: its statements, at any depth, are where the grammar allows them, names and texts
consist of what they may consist of, keywords match arguments, characters of indentation are nested. -/
theorem C83_wellmade {ss : List (Stmt P)} (h : loadScript M U names script = .ok ss) : Stmt.MadeDocument M U ss :=
  load_fit.1 ss h

/-- No script whatsoever: setup of the nodes finds the children it expects, however the script was parsed. -/
theorem C83_never_malformed : loadScript (P := P) M U names script ≠ .error (.setup .malformed) :=
  load_fit.2

/-- Loading resolves no names, so analysis starts with a clean tree: hypothesis of C55. -/
theorem C83_unanalysed {ss : List (Stmt P)} (h : loadScript M U names script = .ok ss) : ∀ s ∈ ss, s.unanalysed := by
  obtain ⟨-, h⟩ := C83_wellmade h
  exact fun s hs => ((Stmt.madeAll_iff ss).1 h s hs).fresh

/-- The first-level statements, other than characters of indentation, and bodies of hypertags do not contain
characters of indentation outside of bodies: hypotheses of C54. -/
theorem C83_blocks {ss : List (Stmt P)} (h : loadScript M U names script = .ok ss) :
    (∀ s ∈ ss, s.role ≠ .piece → s.isBlock) ∧ ∀ d ∈ Stmt.defsAll ss, d.2.body.isBlock := by
  obtain ⟨-, h⟩ := C83_wellmade h
  exact ⟨fun s hs hr => ((Stmt.madeAll_iff ss).1 h s hs).isBlock hr,
    fun d hd => (Stmt.MadeAll.defined h d hd).2.isBlock (Stmt.MadeAll.defined h d hd).1.role_ne⟩

end

/-! Examples -/

attribute [local instance] defaultMarks_apart

/-- A script with all kinds of statements. -/
def madeScript : Str :=
  s!!"context $x\nfrom m import *, %g as h\n% h @b a c=1\n  p | $a\n  @ b\n$ z, y = x[1:2], -x\np .k #i a=1 : h 2 q={z}\n    | text $x\n    / <i>\nif x == 1:\n    p\nelse\n  ! raw\ntry\n  $x\nelse\n  @ h(1, c=2)\nfor i in x\n   pass\nwhile x | y\n-- done"

/-- It is loaded, so its indentation is nested and so on. -/
example : (loadScript (P := Unit) defaultMarks asciiUni (fun _ => none) madeScript).toOption.isSome = true := by
  decide +kernel

/-- The specification does reject trees: indentation that is not closed, a headline outside of a body, a block in place of a
body, a slot given to a variable, keywords without arguments, a name with a space. -/
example : ¬ Stmt.MadeDocument (P := Unit) defaultMarks asciiUni [.indent ' '] := by
  rintro ⟨⟨blocks, margin, h1, h2, h3, h4⟩, -⟩
  cases margin with
  | cons m ms =>
    obtain ⟨w, rfl⟩ := h4 m (by simp)
    cases blocks with
    | nil => cases h1
    | cons b bs =>
      have := congrArg List.length h1
      simp at this
  | nil =>
    rw [List.append_nil] at h1
    subst h1
    unfold Stmt.Blocks at h2
    generalize h5 : [Stmt.indent (P := Unit) ' '] = l at h2
    cases h2 with
    | nil => cases h5
    | one h => cases h5; cases h
    | sub =>
      have := congrArg List.length h5
      simp at this

example : ¬ Stmt.Made (P := Unit) defaultMarks asciiUni (.xblock [] none (.line (.verbat (s!!"a")))) := by
  simp [Stmt.Made, Stmt.role]

example : ¬ Stmt.Made (P := Unit) defaultMarks asciiUni (.struct [.null] (.xblock [] none .pass)) := by
  simp [Stmt.Made, Stmt.role, Stmt.isBody]

example : ¬ (Expr.varUse (s!!"x") (some 1)).Made := by simp [Expr.Made]

example : ¬ (Tail.call [] [.noneLit]).Made := by simp [Tail.Made]

example : ¬ (Target.var (s!!"x y") false none none).Made := by
  simp only [Target.Made, Ident]
  rintro ⟨⟨c, s, h1, -, h2⟩, -⟩
  cases h1
  exact absurd (h2 ' ' (by simp)) (by decide)

/-- Setup does fail with other errors: an attribute of a tag given by an embedding with a qualifier. -/
example : loadScript (P := Unit) defaultMarks asciiUni (fun _ => none) (s!!"tag {x}?") = .error (.setup .assertion) := by
  have h : (match loadScript (P := Unit) defaultMarks asciiUni (fun _ => none) (s!!"tag {x}?") with
    | .error (.setup .assertion) => true
    | _ => false) = true := by decide +kernel
  split at h
  · next e => exact e
  · cases h

end Verif
