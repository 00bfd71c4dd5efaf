import Verif.Lemmas.Grammar
import Verif.Lemmas.Parses
import Verif.Props.Preprocess

/-
Properties of the parser: it always gives an answer, the answer does not lose any character of the
script, and the only way of failure is an incomplete parse.
-/

namespace Verif
open Py

/-- No characters beyond ASCII in the classes of characters; for examples. -/
def asciiUni : Uni := ⟨fun _ => false, fun _ => false, fun _ => false, fun _ => false⟩

/-! ### C65: parsing terminates -/

/-- C65. For every text there is one result of the parser, which it reaches whenever it may make
`parseFuel` nested calls or more: it does not recurse or loop forever. -/
theorem C65_terminates (M : Marks) (U : Uni) (text : Str) :
    ∃ r : PRes (PTree NT), r ≠ .timeout ∧
      ∀ f, parseFuel text.length ≤ f → run (rule M U) f (.ref .document) text = r := by
  have h : run (rule M U) (parseFuel text.length) (.ref .document) text ≠ .timeout := by
    refine ((rule_noLeftRec M U).run_result (parseFuel text.length) text.length 25 1 ?_).1
      (.ref .document) text (Nat.le_refl _) (Peg.leftBelow_top rankRule_lt _) (Nat.le_refl _)
    simp [parseFuel, fuelFor]
  exact ⟨_, h, fun f hf => run_mono _ hf rfl h⟩

/-- C65, for every rule of the grammar and every text. -/
theorem C65_terminates_rules (M : Marks) (U : Uni) (n : NT) (text : Str) :
    ∃ r : PRes (PTree NT), r ≠ .timeout ∧
      ∀ f, parseFuel text.length ≤ f → run (rule M U) f (.ref n) text = r := by
  have h : run (rule M U) (parseFuel text.length) (.ref n) text ≠ .timeout := by
    refine ((rule_noLeftRec M U).run_result (parseFuel text.length) text.length 25 1 ?_).1
      (.ref n) text (Nat.le_refl _) (Peg.leftBelow_top rankRule_lt _) (Nat.le_refl _)
    simp [parseFuel, fuelFor]
  exact ⟨_, h, fun f hf => run_mono _ hf rfl h⟩

/-- C65: `parse` itself never reports that the fuel ran out. -/
theorem C65_parse (M : Marks) (U : Uni) (text : Str) : parse M U text ≠ .error .timeout := by
  obtain ⟨r, hr, h⟩ := C65_terminates M U text
  rw [parse, h _ (Nat.le_refl _)]
  cases r with
  | timeout => exact absurd rfl hr
  | fail => simp
  | ok t rest => cases rest <;> simp

-- deeply nested parentheses, for which each rule of the chain of operators is tried at each level
example : ∃ r : PRes (PTree NT), r ≠ .timeout ∧
    ∀ f, 10001 * 832 ≤ f → run (rule stdMarks asciiUni) f (.ref .expr)
      (List.replicate 10000 '(') = r := by
  obtain ⟨r, h, hf⟩ := C65_terminates_rules stdMarks asciiUni .expr (List.replicate 10000 '(')
  exact ⟨r, h, fun f hle => hf f (by rw [List.length_replicate, parseFuel]; omega)⟩

/-! ### C66: the syntax tree represents the whole text -/

mutual
/-- The leaves of a syntax tree, from left to right. -/
def leaves {N : Type} : PTree N → List Str
  | .node _ t [] => [t]
  | .node _ _ (c :: cs) => leaves c ++ leavesAll cs
/-- The leaves of several trees. -/
def leavesAll {N : Type} : List (PTree N) → List Str
  | [] => []
  | c :: cs => leaves c ++ leavesAll cs
end

mutual
/-- All nodes of a syntax tree. -/
def subtrees {N : Type} : PTree N → List (PTree N)
  | .node n t cs => .node n t cs :: subtreesAll cs
/-- All nodes of several trees. -/
def subtreesAll {N : Type} : List (PTree N) → List (PTree N)
  | [] => []
  | c :: cs => subtrees c ++ subtreesAll cs
end

mutual
theorem Whole.leaves {N : Type} : ∀ t : PTree N, Whole t → (leaves t).flatten = t.text
  | .node n t [], _ => by simp [Verif.leaves, PTree.text]
  | .node n t (c :: cs), h => by
    simp only [Whole, WholeAll] at h
    obtain ⟨h1, h2, h3⟩ := h
    simp only [reduceCtorEq, false_or] at h1
    simp only [Verif.leaves, List.flatten_append]
    rw [Whole.leaves c h2, WholeAll.leaves cs h3, ← texts_cons]
    exact h1.symm
theorem WholeAll.leaves {N : Type} : ∀ cs : List (PTree N), WholeAll cs →
    (leavesAll cs).flatten = texts cs
  | [], _ => by simp [leavesAll]
  | c :: cs, h => by
    simp only [leavesAll, List.flatten_append, texts_cons]
    rw [Whole.leaves c h.1, WholeAll.leaves cs h.2]
end

mutual
theorem Whole.subtree {N : Type} : ∀ t u : PTree N, Whole t → u ∈ subtrees t → Whole u
  | .node n t cs, u, h, hu => by
    simp only [subtrees, List.mem_cons] at hu
    rcases hu with hu | hu
    · rw [hu]; exact h
    · exact WholeAll.subtree cs u h.2 hu
theorem WholeAll.subtree {N : Type} : ∀ (cs : List (PTree N)) (u : PTree N), WholeAll cs →
    u ∈ subtreesAll cs → Whole u
  | [], u, _, hu => by simp [subtreesAll] at hu
  | c :: cs, u, h, hu => by
    simp only [subtreesAll, List.mem_append] at hu
    rcases hu with hu | hu
    · exact Whole.subtree c u h.1 hu
    · exact WholeAll.subtree cs u h.2 hu
end

/-- C66. If a script parses, then the leaves of the syntax tree, put together, are the script: no
character is lost, doubled or moved. The same holds inside: the text of each node is that of its
leaves, and each node with children is exactly covered by them. -/
theorem C66_lossless (M : Marks) (U : Uni) (text : Str) (t : PTree NT)
    (h : parse M U text = .ok t) :
    (leaves t).flatten = text ∧ t.text = text ∧
    ∀ u ∈ subtrees t, (leaves u).flatten = u.text ∧
      (u.children = [] ∨ u.text = (u.children.map PTree.text).flatten) := by
  rw [parse] at h
  cases hr : run (rule M U) (parseFuel text.length) (.ref .document) text with
  | fail => rw [hr] at h; cases h
  | timeout => rw [hr] at h; cases h
  | ok t' rest =>
    rw [hr] at h
    cases rest with
    | cons c cs => cases h
    | nil =>
      cases h
      have hw := (run_whole (rule M U) (parseFuel text.length)).1 (.ref .document) text
      rw [hr] at hw
      obtain ⟨h1, h2⟩ := hw
      rw [List.append_nil] at h1
      refine ⟨by rw [Whole.leaves _ h2, h1], h1, fun u hu => ?_⟩
      have hu' := Whole.subtree _ u h2 hu
      refine ⟨Whole.leaves u hu', ?_⟩
      obtain ⟨n, tx, cs⟩ := u
      exact hu'.1

/-- C66. If a script does not parse, then the reason is always an `IncompleteParseError`, the exception
that `HypertagAST.__init__` translates to a `SyntaxErrorEx` with a line number; the rest that was not
matched is a non-empty ending of the text. -/
theorem C66_incomplete (M : Marks) (U : Uni) (text : Str) (e : ParseErr)
    (h : parse M U text = .error e) :
    ∃ done rest, e = .incomplete rest ∧ rest ≠ [] ∧ text = done ++ rest := by
  obtain ⟨r, hr, hf⟩ := C65_terminates M U text
  have hsome : r ≠ .fail := by
    intro hfail
    subst hfail
    obtain ⟨t1, r1, h1⟩ := (rule_noLeftRec M U).opt (.ref .core_blocks) text
    obtain ⟨t2, r2, h2⟩ := (rule_noLeftRec M U).opt (.ref .margin) r1
    have h3 : Yields (rule M U) (.ref .document) text _ _ :=
      .ref (.seq (.cons h1 (.cons h2 (.nil _))))
    exact h3.not_fails ⟨_, hf _ (Nat.le_refl _)⟩
  rw [parse, hf _ (Nat.le_refl _)] at h
  cases r with
  | timeout => exact absurd rfl hr
  | fail => exact absurd rfl hsome
  | ok t rest =>
    cases rest with
    | nil => cases h
    | cons c cs =>
      cases h
      have hw := (run_whole (rule M U) (parseFuel text.length)).1 (.ref .document) text
      rw [hf _ (Nat.le_refl _)] at hw
      exact ⟨t.text, c :: cs, rfl, by simp, hw.1.symm⟩

/-- The text of all leaves, and the number of nodes, if the script parses; for examples. -/
def leavesOf (text : Str) : Option (Str × Nat) :=
  match parse stdMarks asciiUni text with
  | .ok t => some ((leaves t).flatten, (subtrees t).length)
  | .error _ => none

/-- The rest that was not matched. -/
def unmatched (text : Str) : Option Str :=
  match parse stdMarks asciiUni text with
  | .error (.incomplete rest) => some rest
  | _ => none

example : leavesOf (s!!"\np : | Hi $x {y+1}!") = some ((s!!"\np : | Hi $x {y+1}!"), 130) := by
  decide +kernel
-- a dedentation to a level that was not there before
example : unmatched (s!!"\na❨❨\nb❩\nc❩") = some (s!!"❨❨\nb❩\nc❩") := by decide +kernel

end Verif
