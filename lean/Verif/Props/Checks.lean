import Verif.Lemmas.ChecksMade
import Verif.Props.Made

/-! C90: what the analysis of a script checks. -/

namespace Verif
open Py Spec

/-! ### C90: a script is accepted iff all checks are passed -/

section
variable {P I : Type} {src : Source P I}

/-- Any statements, modules, context and global symbols: analysis succeeds iff every name is in scope where it
is used, modules and their symbols exist, and definitions, imports and context blocks are where they may be. -/
theorem C90_accepted (first : Slot) (globals : Dict Str (Val P)) (children : List (Stmt P)) :
    (∃ doc, analyseDocument src first globals children = .ok doc) ↔
      ∀ x ∈ documentChecks src (globals.map Prod.fst) children, x = none := by
  have h := analyseDocument_verdict src first globals children
  rw [← firstFailed_none]
  constructor
  · rintro ⟨doc, hd⟩
    exact (h.1 doc hd).1
  · intro hn
    cases hr : analyseDocument src first globals children with
    | ok doc => exact ⟨doc, rfl⟩
    | error e => cases hn.symm.trans (h.2 e hr)

/-- Otherwise the exception is that of the first check that is not passed, in the order of the text. -/
theorem C90_first (first : Slot) (globals : Dict Str (Val P)) (children : List (Stmt P)) (e : AErr I) :
    analyseDocument src first globals children = .error e ↔
      firstFailed (documentChecks src (globals.map Prod.fst) children) = some e := by
  have h := analyseDocument_verdict src first globals children
  refine ⟨h.2 e, fun hf => ?_⟩
  cases hr : analyseDocument src first globals children with
  | ok doc => cases hf.symm.trans (h.1 doc hr).1
  | error e' => cases hf.symm.trans (h.2 e' hr); rfl

/-- In an accepted script neither a definition of a hypertag nor an import is inside of a control block,
however deep. (The `else` of a `for` is not looked at.) -/
theorem C90_places {first : Slot} {globals : Dict Str (Val P)} {children : List (Stmt P)} {doc : Document P}
    (h : analyseDocument src first globals children = .ok doc) {s t : Stmt P} {inside : Bool}
    (hs : s ∈ children) (ht : Occurs inside s t) :
    (∀ id n sl ba as b, t = .defn id n sl ba as b → inside = false) ∧
    (∀ path items, t = .imports false path items → inside = false) := by
  have h1 := (C90_accepted first globals children).1 ⟨doc, h⟩
  obtain ⟨-, h2⟩ := passed_append.1 h1
  obtain ⟨S, pro, h3⟩ := passed_all hs h2
  obtain ⟨S', pro', h4⟩ := passed_occurs ht h3
  constructor
  · rintro id n sl ba as b rfl
    simp only [checks, passed_append] at h4
    have := h4.1.1.1.1 _ List.mem_cons_self
    cases inside
    · rfl
    · cases this
  · rintro path items rfl
    simp only [checks, passed_append] at h4
    have := h4.1 _ List.mem_cons_self
    cases inside
    · rfl
    · cases this

end

section
variable {P I : Type} {src : Source P I} {M : Marks} {U : Uni} [MarksApart M U] {names : Str → Option Char}
  {script : Str}

/-- Any script that was loaded, if symbols of the modules and global symbols are proper: analysis never fails with an
`AssertionError` or `IndexError`, so whatever is rejected is rejected with an error of Hypertag or of the loader. -/
theorem C90_errors {ss : List (Stmt P)} (hl : loadScript M U names script = .ok ss) (hm : ProperModules src)
    {globals : Dict Str (Val P)} (hg : ∀ x ∈ globals, IsSymbol x.1 = true) {first : Slot} {e : AErr I}
    (he : analyseDocument src first globals ss = .error e) : e ≠ .assertion ∧ e ≠ .index := by
  have h1 := firstFailed_mem ((C90_first first globals ss e).1 he)
  have h2 : e.internal = false := by
    refine Clean.append (clean_symbols ?_) (clean_checksAll hm ss _ _ _ (C83_wellmade hl).2) e h1
    intro x hx
    obtain ⟨y, hy, rfl⟩ := List.mem_map.1 hx
    exact hg y hy
  constructor <;> (rintro rfl; cases h2)

end

/-! Examples -/

attribute [local instance] defaultMarks_apart

/-- Module `m` with `$x` and `%_t`, and the context with `$x`. -/
def exCheckSource : Source Unit Nat where
  modules := fun p => if p = some (s!!"m") then .ok ([(s!!"$x", .py ()), (s!!"%_t", .py ())], 1) else .error 7
  context := [(s!!"$x", .py ())]

/-- Load and analyse a script, with the tag `p` and the variable `g` given. -/
def exChecks (script : Str) : Option (Option (AErr Nat)) :=
  match loadScript (P := Unit) defaultMarks asciiUni (fun _ => none) script with
  | .ok ss =>
    match analyseDocument exCheckSource 0 [(s!!"%p", .py ()), (s!!"$g", .py ())] ss with
    | .ok _ => some none
    | .error e => some (some e)
  | .error _ => none

-- names
example : exChecks (s!!"$ y = g\np y | $g") = some none := by decide +kernel
example : exChecks (s!!"p | $y") = some (some (.undefinedVar (s!!"$y"))) := by decide +kernel
example : exChecks (s!!"q y") = some (some (.undefinedVar (s!!"$y"))) := by decide +kernel
example : exChecks (s!!"q g") = some (some (.undefinedTag (s!!"%q"))) := by decide +kernel
example : exChecks (s!!"p\n  $ y = g\np y") = some (some (.undefinedVar (s!!"$y"))) := by decide +kernel
example : exChecks (s!!"if g\n  $ y = g\np y") = some none := by decide +kernel
-- modules
example : exChecks (s!!"from m import $x, %_t as t\nt x") = some none := by decide +kernel
example : exChecks (s!!"from m import $y") = some (some (.importErr (s!!"$y"))) := by decide +kernel
example : exChecks (s!!"from k import $y") = some (some (.loader 7)) := by decide +kernel
example : exChecks (s!!"from m import *\n_t x") = some (some (.undefinedTag (s!!"%_t"))) := by decide +kernel
-- places
example : exChecks (s!!"% h a\n  p a\nh g") = some none := by decide +kernel
example : exChecks (s!!"p\n  % h a\n    p a\n  h g") = some none := by decide +kernel
example : exChecks (s!!"if g\n  p\n    % h a\n      p a") = some (some .syntaxErr) := by decide +kernel
example : exChecks (s!!"try\n  from m import $x") = some (some .syntaxErr) := by decide +kernel
example : exChecks (s!!"context $x\np x") = some none := by decide +kernel
example : exChecks (s!!"p\ncontext $x") = some (some .syntaxErr) := by decide +kernel
-- two faults: the first one
example : exChecks (s!!"p y\nif g\n  from m import $x") = some (some (.undefinedVar (s!!"$y"))) := by decide +kernel
-- the `else` of a `for` is not checked
example : exChecks (s!!"for i in g\n  p\nelse\n  q y") = some none := by decide +kernel

/-- The hypothesis of `C90_errors`; without it the exception is possible. -/
example : ProperModules exCheckSource := by
  intro path table st h x hx
  simp only [exCheckSource] at h
  split at h
  · cases h
    simp only [List.mem_cons, List.not_mem_nil, or_false] at hx
    rcases hx with rfl | rfl <;> rfl
  · cases h

example : (analyseDocument exCheckSource 0 [(s!!"x", .py ())] []) matches .error .assertion := rfl

/-- A definition inside of an `if`, and a place of a definition that is allowed. -/
example : Occurs true (.ifBlock [(.noneLit, some (.struct [] (.defn 0 (s!!"h") none none [] .pass)))] none)
    (.defn 0 (s!!"h") none none [] (.pass : Stmt Unit)) :=
  .ifClause List.mem_cons_self (.struct (.here _))

end Verif
