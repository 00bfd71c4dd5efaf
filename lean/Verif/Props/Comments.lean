import Verif.Lemmas.Comments
import Verif.Props.Independent

/-! C113: comments make no difference. -/

namespace Verif
open Py Spec

section
variable {P X W I : Type}

/-! ### C113 Comments make no difference -/

/-- Where a comment is among blocks of a script, there might be just the blank lines that are above it: the faults found by the analysis are
the same, and so are the symbols and their slots, and the place where the prolog ends. -/
theorem C113_one_analysed (src : Source P I) (before after : List (Stmt P)) (m : Str) (mo : Option Modifier) (c : Ctx) :
    (analyseAll src (before ++ .xblock m mo .comment :: after) c).map Prod.snd =
    (analyseAll src (before ++ blankLines m ++ after) c).map Prod.snd := by
  have h : ∀ ss ts : List (Stmt P), Stmt.plainAll ss = Stmt.plainAll ts → (analyseAll src ss c).map Prod.snd = (analyseAll src ts c).map Prod.snd := by
    intro ss ts e
    have e1 := analyseAll_plain (src := src) ss c
    have e2 := analyseAll_plain (src := src) ts c
    unfold Along at e1 e2
    rw [e, e2] at e1
    have := congrArg (Except.map Prod.snd) e1
    cases ha : analyseAll src ss c <;> cases hb : analyseAll src ts c <;> rw [ha, hb] at this <;> simpa [Except.map] using this.symm
  refine h _ _ ?_
  have app : ∀ a b : List (Stmt P), Stmt.plainAll (a ++ b) = Stmt.plainAll a ++ Stmt.plainAll b := by
    intro a b
    induction a with
    | nil => simp only [List.nil_append, Stmt.plainAll]
    | cons s ss ih =>
      simp only [List.cons_append, Stmt.plainAll]
      rw [ih]
      cases s.remark <;> simp
  rw [app, app, app]
  simp only [Stmt.plainAll, Stmt.remark, List.append_assoc]
  congr 2
  unfold blankLines
  split <;> simp [Stmt.plainAll, Stmt.plain, Stmt.remark]

/-- And the nodes that are made are the same, in the same state of memory. -/
theorem C113_one_translated (E : Env P X W) (σ : StateId) (before after : List (Stmt P)) (m : Str) (mo : Option Modifier) :
    translAll E σ (before ++ .xblock m mo .comment :: after) = translAll E σ (before ++ blankLines m ++ after) := by
  induction before with
  | nil =>
    rw [List.nil_append, List.nil_append, translAll_blank]
    simp only [translAll, transl, finishBlock, Comp.bind_assoc, Comp.pure_bind, nodesOf]
  | cons s ss ih =>
    simp only [List.cons_append, translAll]
    rw [ih]

/-- All comments are left out, on all levels. -/
theorem C113_left_out (ss : List (Stmt P)) : Stmt.uncommentedAll (Stmt.plainAll ss) := Stmt.plainAll_uncommented ss

/-- A script without its comments has the same faults; when it has none, its document is the document of the script, without comments, with the same
slots of symbols and the same exported symbols. -/
theorem C113_analysed (src : Source P I) (first : Slot) (g : Dict Str (Val P)) (ss : List (Stmt P)) :
    analyseDocument src first g (Stmt.plainAll ss) = (analyseDocument src first g ss).map Document.plain := by
  unfold analyseDocument
  cases valueSlots (I := I) g { next := first } with
  | error e => rfl
  | ok x =>
    have h := analyseAll_plain (src := src) ss x.2
    unfold Along at h
    show (analyseAll src (Stmt.plainAll ss) x.2 >>= _) = Except.map _ (analyseAll src ss x.2 >>= _)
    rw [h]
    cases analyseAll src ss x.2 <;> rfl

/-- Hypertags of a document without comments. -/
theorem C113_hypertags (Γ : DefId → DefInfo P) (doc : Document P) (h : Enrolled Γ doc) : Enrolled (fun id => (Γ id).plain) doc.plain := by
  intro d hd
  have e : Stmt.defsAll doc.plain.children = _ := Stmt.defsAll_plain doc.children
  rw [e] at hd
  obtain ⟨d', hd', rfl⟩ := List.mem_map.1 hd
  show (Γ d'.1).plain = d'.2.plain
  rw [h d' hd']

/-- And it is translated to the same nodes, with the same exported values, or the same error is raised: in every state, whatever operations of python
give. The bodies of its hypertags are without comments, too. -/
theorem C113_translated (ops : PyOps P X W) (Γ : DefId → DefInfo P) (n : Nat) (σ : StateId) (doc : Document P) :
    translDocument (envAt ops (fun id => (Γ id).plain) n) σ doc.plain = translDocument (envAt ops Γ n) σ doc := by
  rw [envAt_plain]
  unfold translDocument Document.plain
  rw [translAll_plain]

end

/-! ### Examples -/

namespace CommentsEx
open IndependentEx

-- comments on all levels, of both kinds, with a text below, and the same script without them; the second comment of the loop has a blank line above
def remarks : Str := s!!"# on top\n%H t\n    -- in a definition\n    p | {t}-{x}\nfor i in s:\n    # in a loop\n    $u = i\n\n    # below\n    H u\n-- at the end"
def plain : Str := s!!"%H t\n    p | {t}-{x}\nfor i in s:\n    $u = i\n\n    H u"

example : (text remarks).isSome = true ∧ text remarks = text plain := by decide +kernel

/-- What is below a comment is a part of it, if indented. -/
example : text (s!!"# a\n    $z = y\n    | b\n| c") = text (s!!"| c") ∧ (text (s!!"| c")).isSome = true := by decide +kernel

/-- A blank line above a comment stays. -/
example : text (s!!"| a\n\n# b\n| c") = text (s!!"| a\n\n| c") ∧ text (s!!"| a\n\n| c") ≠ text (s!!"| a\n| c") := by decide +kernel

/-- A comment is not the same as a null statement: `pass` ends the prolog, where symbols are imported from the context. -/
example : (analyseDocument (I := Unit) MentionsEx.source 0 [] [.xblock [] none .comment, .xblock [] none (.imports true none [])]).toOption.isSome = true ∧
    (analyseDocument (I := Unit) MentionsEx.source 0 [] [.xblock [] none .pass, .xblock [] none (.imports true none [])]).toOption.isSome = false := by
  decide +kernel

end CommentsEx
end Verif
