import Verif.Spec.Truth
import Verif.Props.Expr
import Verif.Props.Operators
import Verif.Props.Control

/-! Property C111: what counts as true. -/

namespace Verif
open Py

section
variable {P X W : Type} (E : Env P X W)

/-- Testing a false value says so and has no effect. -/
theorem Spec.Falsy.test {v : Val P} (h : Spec.Falsy v) (M : Machine P W) : Gives (truthOf E v) M Bool.false M := by
  cases h <;> rfl

/-- Testing a true value says so and has no effect. -/
theorem Spec.Truthy.test {v : Val P} (h : Spec.Truthy v) (M : Machine P W) : Gives (truthOf E v) M Bool.true M := by
  cases h <;> rfl

/-- Every value but Python's own is true or false, and not both. -/
theorem C111_either (v : Val P) :
    (Spec.Falsy v ∨ Spec.Truthy v ∨ ∃ p, v = .py p) ∧ ¬ (Spec.Falsy v ∧ Spec.Truthy v) := by
  constructor
  · rcases v with p | _ | b | s | ns | r | h | ⟨h, st⟩ | ⟨f, as, kw⟩
    · exact .inr (.inr ⟨p, rfl⟩)
    · exact .inl .none
    · cases b
      · exact .inl .false
      · exact .inr (.inl .true)
    · cases s
      · exact .inl .text
      · exact .inr (.inl (.text _ _))
    · cases ns
      · exact .inl .nodes
      · exact .inr (.inl (.nodes _ _))
    · exact .inr (.inl (.node _))
    · exact .inr (.inl (.hyper _))
    · exact .inr (.inl (.embedded _ _))
    · exact .inr (.inl (.part _ _ _))
  · rintro ⟨h1, h2⟩
    cases h1 <;> cases h2

/-- C111, expressions: `x` has a false value. The logical operators, the conditional expression and the
qualifiers agree on it. -/
theorem C111_false {σ : StateId} {x : Expr} {v : Val P} {M M1 : Machine P W} (hx : eval E σ x M = (.ok v, M1))
    (hv : Spec.Falsy v) (y z : Expr) (ys : List Expr) :
    eval E σ (.andTest x (y :: ys)) M = (.ok v, M1) ∧
    eval E σ (.orTest x (y :: ys)) M = eval E σ (.orTest y ys) M1 ∧
    eval E σ (.notTest 1 x) M = (.ok (.bool true), M1) ∧
    eval E σ (.ifElse y x (some z)) M = eval E σ z M1 ∧
    eval E σ (.ifElse y x none) M = (.ok (.str []), M1) ∧
    eval E σ (.root (some .opt) x) M = (.ok (.str []), M1) ∧
    (∀ s M2, Gives (runPy E (E.ops.repr v)) M1 s M2 → eval E σ (.root (some .obl) x) M = (.raise .falseValue, M2)) := by
  have ht := hv.test E M1
  refine ⟨?_, ?_, C71_not E σ x M M1 M1 v false hx ht, (C44_false E σ y x M M1 M1 v hx ht).1 z,
    (C44_false E σ y x M M1 M1 v hx ht).2, (C45_optional E σ _ _ (.root x) M).2.1 v M1 M1 hx ht,
    fun s M2 hs => (C46_obligatory E σ _ _ (.root x) M).2.1 v M1 M1 M2 s hx ht hs⟩
  · simp only [eval]
    rw [Comp.bind_ok hx]
    simp only [evalAnd]
    rw [Comp.bind_ok ht]; rfl
  · simp only [eval]
    rw [Comp.bind_ok hx]
    simp only [evalOr]
    rw [Comp.bind_ok ht, if_neg (by simp), Comp.bind_ok ht, if_neg (by simp)]

/-- C111, expressions: `x` has a true value. -/
theorem C111_true {σ : StateId} {x : Expr} {v : Val P} {M M1 : Machine P W} (hx : eval E σ x M = (.ok v, M1))
    (hv : Spec.Truthy v) (y : Expr) (ys : List Expr) (z : Option Expr) :
    eval E σ (.andTest x (y :: ys)) M = eval E σ (.andTest y ys) M1 ∧
    eval E σ (.orTest x (y :: ys)) M = (.ok v, M1) ∧
    eval E σ (.notTest 1 x) M = (.ok (.bool false), M1) ∧
    eval E σ (.ifElse y x z) M = eval E σ y M1 ∧
    eval E σ (.root (some .opt) x) M = (.ok v, M1) ∧
    eval E σ (.root (some .obl) x) M = (.ok v, M1) := by
  have ht := hv.test E M1
  refine ⟨?_, ?_, C71_not E σ x M M1 M1 v true hx ht, C44_true E σ y x z M M1 M1 v hx ht,
    (C45_optional E σ _ _ (.root x) M).1 v M1 M1 hx ht, (C46_obligatory E σ _ _ (.root x) M).1 v M1 M1 hx ht⟩
  · simp only [eval]
    rw [Comp.bind_ok hx]
    simp only [evalAnd]
    rw [Comp.bind_ok ht, if_pos rfl, Comp.bind_ok ht, if_pos rfl]
  · simp only [eval]
    rw [Comp.bind_ok hx]
    simp only [evalOr]
    rw [Comp.bind_ok ht]; rfl

/-- C111, blocks: clauses whose tests are false are passed over, a clause whose test is true is taken,
and a `while` block with a false test makes nothing. -/
theorem C111_blocks {σ : StateId} {x : Expr} {v : Val P} {M M1 : Machine P W} (hx : eval E σ x M = (.ok v, M1))
    (body : Stmt P) (post : List (Expr × Option (Stmt P))) (els : Option (Stmt P)) :
    (Spec.Falsy v → transl E σ (.ifBlock ((x, some body) :: post) els) M = transl E σ (.ifBlock post els) M1) ∧
    (Spec.Truthy v → transl E σ (.ifBlock ((x, some body) :: post) els) M = placed σ (transl E σ body) M1) ∧
    (Spec.Falsy v → 0 < E.fuel →
      Gives (transl E σ (.whileBlock x (some body) none)) M (some []) M1) := by
  refine ⟨fun hv => ?_, fun hv => ?_, fun hv hf => ?_⟩
  · have ht := hv.test E M1
    simp only [transl]
    rw [Comp.bind_run, Comp.bind_run]
    congr 1
    simp only [translIf]
    rw [Comp.bind_ok hx, Comp.bind_ok ht, if_neg (by simp)]
  · exact (C50_first_true E σ [] post x body els M M M1 M1 v (.nil _) hx (hv.test E M1)).1
  · refine (C52_while E σ x body M M1 (some [])).2 ⟨[], M1, .stop ?_, hf, rfl⟩
    unfold Gives
    rw [Comp.bind_ok hx]
    exact hv.test E M1

end

-- `x or f()` and `f() if x else 5` for `x = ''`
example : Toy.run (eval Toy.env 0 (.orTest (Toy.v 0) [Toy.f 1]))
    (Toy.machine [.str [], .py (.fn 4)]) = (.ok (Toy.num 4), [4]) := rfl
-- `' ' and f()`, `not ''`
example : Toy.run (eval Toy.env 0 (.andTest (Toy.v 0) [Toy.f 1]))
    (Toy.machine [.str [' '], .py (.fn 4)]) = (.ok (Toy.num 4), [4]) := rfl
example : Toy.run (eval Toy.env 0 (.notTest 1 (Toy.v 0))) (Toy.machine [.str []]) = (.ok (.bool true), []) := rfl
example : Spec.Truthy (.str (s!!"False") : Val Toy.Obj) ∧ Spec.Falsy (.dom [] : Val Toy.Obj) :=
  ⟨.text _ _, .nodes⟩

end Verif
