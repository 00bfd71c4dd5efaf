import Verif.Model.Translate
import Mathlib.Tactic.Common

/-! Basic facts on computations: monad laws and the effect of each outcome of the first step. -/

namespace Verif
open Py

section
variable {P X W α β γ : Type}

namespace Comp

theorem pure_def (a : α) : (Pure.pure a : Comp P X W α) = Comp.pure a := rfl
theorem bind_def (c : Comp P X W α) (f : α → Comp P X W β) : (c >>= f) = Comp.bind c f := rfl

theorem pure_run (a : α) (M : Machine P W) : (Pure.pure a : Comp P X W α) M = (.ok a, M) := rfl

theorem bind_run (c : Comp P X W α) (f : α → Comp P X W β) (M : Machine P W) :
    (c >>= f) M = Comp.next f (c M) := rfl

theorem raise_run (e : Exn X) (M : Machine P W) : (Comp.raise e : Comp P X W α) M = (.raise e, M) := rfl

theorem bind_ok {c : Comp P X W α} {f : α → Comp P X W β} {M M' : Machine P W} {a : α}
    (h : c M = (.ok a, M')) : (c >>= f) M = f a M' := by
  rw [bind_run, h]; rfl

theorem bind_raise {c : Comp P X W α} {f : α → Comp P X W β} {M M' : Machine P W} {e : Exn X}
    (h : c M = (.raise e, M')) : (c >>= f) M = (.raise e, M') := by
  rw [bind_run, h]; rfl

theorem bind_timeout {c : Comp P X W α} {f : α → Comp P X W β} {M M' : Machine P W}
    (h : c M = (.timeout, M')) : (c >>= f) M = (.timeout, M') := by
  rw [bind_run, h]; rfl

theorem pure_bind (a : α) (f : α → Comp P X W β) : ((Pure.pure a : Comp P X W α) >>= f) = f a := rfl

theorem bind_pure (c : Comp P X W α) : (c >>= fun a => (Pure.pure a : Comp P X W α)) = c := by
  funext M
  rw [bind_run]
  rcases h : c M with ⟨r, M'⟩
  cases r <;> rfl

theorem bind_assoc (c : Comp P X W α) (f : α → Comp P X W β) (g : β → Comp P X W γ) :
    ((c >>= f) >>= g) = (c >>= fun a => f a >>= g) := by
  funext M
  simp only [bind_run]
  rcases h : c M with ⟨r, M'⟩
  cases r <;> rfl

theorem raise_bind (e : Exn X) (f : α → Comp P X W β) :
    ((Comp.raise e : Comp P X W α) >>= f) = Comp.raise e := rfl

/-- Inversion of a normal outcome. -/
theorem bind_eq_ok {c : Comp P X W α} {f : α → Comp P X W β} {M M' : Machine P W} {b : β} :
    (c >>= f) M = (.ok b, M') ↔ ∃ a M1, c M = (.ok a, M1) ∧ f a M1 = (.ok b, M') := by
  rw [bind_run]
  rcases h : c M with ⟨r, M1⟩
  cases r with
  | ok a =>
    constructor
    · intro hf; exact ⟨a, M1, rfl, hf⟩
    · rintro ⟨a', M1', h1, h2⟩
      cases h1
      exact h2
  | raise e => simp [Comp.next]
  | timeout => simp [Comp.next]

/-- Inversion of an exceptional outcome. -/
theorem bind_eq_raise {c : Comp P X W α} {f : α → Comp P X W β} {M M' : Machine P W} {e : Exn X} :
    (c >>= f) M = (.raise e, M') ↔
      c M = (.raise e, M') ∨ ∃ a M1, c M = (.ok a, M1) ∧ f a M1 = (.raise e, M') := by
  rw [bind_run]
  rcases h : c M with ⟨r, M1⟩
  cases r with
  | ok a => simp [Comp.next]
  | raise e' => simp [Comp.next]
  | timeout => simp [Comp.next]

end Comp

end
end Verif
