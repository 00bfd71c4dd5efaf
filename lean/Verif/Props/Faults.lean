import Verif.Lemmas.Faults
import Verif.Props.Made

/-! C89: which parsed scripts are rejected before analysis. -/

namespace Verif
open Py Spec

section
variable {P : Type} {M : Marks} {U : Uni} [MarksApart M U] {names : Str → Option Char} {script flat : Str} {t : PTree NT}

/-- C89. A script that was parsed is loaded if and only if no node of its tree is faulty. -/
theorem C89_loads (hp : preprocess M script = .ok flat) (ht : parse M U flat = .ok t) :
    (∃ ss, loadScript (P := P) M U names script = .ok ss) ↔ ∀ u ∈ postorders (rewrite 0 t), ∀ e, ¬ Fault names u e :=
  (load_faults hp ht).1

/-- C89. Otherwise the exception is that of the first faulty node, children before parents. -/
theorem C89_first_fault (hp : preprocess M script = .ok flat) (ht : parse M U flat = .ok t) (e : SetupErr) :
    loadScript (P := P) M U names script = .error (.setup e) ↔ FirstFault names (postorders (rewrite 0 t)) e :=
  (load_faults hp ht).2 e

/-- C89. In particular a failed assertion has one cause: a qualifier after braces, in an attribute without a name, in the
default of a parameter, or in a statement that is an expression. -/
theorem C89_assertion (hp : preprocess M script = .ok flat) (ht : parse M U flat = .ok t)
    (h : loadScript (P := P) M U names script = .error (.setup .assertion)) :
    ∃ n p w cs, .node n p w cs ∈ postorders (rewrite 0 t) ∧ (n = .attr_unnamed ∨ n = .attr_def ∨ n = .block_expr) ∧
      ∃ c ∈ cs, IsNode .qualifier c := by
  obtain ⟨l, u, r, hl, hf, -⟩ := (C89_first_fault hp ht .assertion).1 h
  cases hf with
  | qualifier hn hq => exact ⟨_, _, _, _, hl ▸ List.mem_append_right _ (.head _), hn, hq⟩

end

/-! Examples -/

attribute [local instance] defaultMarks_apart

/-- How a script is loaded: `none`, or the exception. -/
def exLoad (script : Str) : Option (Option SetupErr) :=
  match loadScript (P := Unit) defaultMarks asciiUni (fun _ => none) script with
  | .ok _ => some none
  | .error (.setup e) => some (some e)
  | .error _ => none

-- an unnamed attribute after a named one
example : exLoad (s!!"p 1 a=2") = some none := by decide +kernel
example : exLoad (s!!"p a=2 1") = some (some .syntax) := by decide +kernel
example : exLoad (s!!"p .k 1") = some (some .syntax) := by decide +kernel
-- parameters of definitions
example : exLoad (s!!"% h a b=1\n  p") = some none := by decide +kernel
example : exLoad (s!!"% h @a b a=1\n  p") = some (some .syntax) := by decide +kernel
-- assignments
example : exLoad (s!!"$ x += 1") = some none := by decide +kernel
example : exLoad (s!!"$ x, y = 1, 2") = some none := by decide +kernel
example : exLoad (s!!"$ x, y += 1, 2") = some (some .syntax) := by decide +kernel
-- qualifiers after braces
example : exLoad (s!!"p a={x}?") = some none := by decide +kernel
example : exLoad (s!!"p {x}?") = some (some .assertion) := by decide +kernel
example : exLoad (s!!"% h a={x}?\n  p") = some (some .assertion) := by decide +kernel
example : exLoad (s!!"$ {x}!") = some none := by decide +kernel
-- literals
example : exLoad (s!!"p '\\x41'") = some none := by decide +kernel
example : exLoad (s!!"p '\\U00110000'") = some (some .decode) := by decide +kernel
-- two faults: the one that ends first
example : exLoad (s!!"p a=2 1\n  p {x}?") = some (some .syntax) := by decide +kernel
example : exLoad (s!!"p {x}? a='\\U00110000'") = some (some .assertion) := by decide +kernel
example : exLoad (s!!"p a='\\U00110000' {x}?") = some (some .decode) := by decide +kernel

/-- The hypotheses of `C89_loads` and both of its sides. -/
example : ∃ flat t, preprocess defaultMarks (s!!"p a=2 1") = .ok flat ∧ parse defaultMarks asciiUni flat = .ok t ∧
    FirstFault (fun _ => none) (postorders (rewrite 0 t)) .syntax := by
  have h : loadScript (P := Unit) defaultMarks asciiUni (fun _ => none) (s!!"p a=2 1") = .error (.setup .syntax) := by
    have h1 : exLoad (s!!"p a=2 1") = some (some .syntax) := by decide +kernel
    unfold exLoad at h1
    split at h1
    · cases h1
    · rename_i e he; cases h1; exact he
    · cases h1
  have h' := h
  unfold loadScript at h
  split at h
  · cases h
  · rename_i flat hp
    split at h
    · cases h
    · rename_i t ht
      exact ⟨flat, t, hp, ht, (C89_first_fault (P := Unit) hp ht _).1 h'⟩

end Verif
