/-! Postconditions of computations that may fail. -/

namespace Verif

section
variable {ε α β : Type}

/-- If the computation succeeds then its result satisfies `Q`. -/
def Post (Q : α → Prop) (r : Except ε α) : Prop := ∀ a, r = .ok a → Q a

theorem Post.pure {Q : α → Prop} {a : α} (h : Q a) : Post Q (Pure.pure a : Except ε α) := by
  intro b hb
  cases hb
  exact h

theorem Post.ok {Q : α → Prop} {a : α} (h : Q a) : Post Q (.ok a : Except ε α) := Post.pure h

theorem Post.error {Q : α → Prop} {e : ε} : Post Q (.error e : Except ε α) := by
  intro b hb
  cases hb

theorem Post.bind {Q : α → Prop} {R : β → Prop} {c : Except ε α} {f : α → Except ε β}
    (hc : Post Q c) (hf : ∀ a, Q a → Post R (f a)) : Post R (c >>= f) := by
  intro b hb
  cases c with
  | error e => cases hb
  | ok a => exact hf a (hc a rfl) b hb

theorem Post.imp {Q R : α → Prop} {c : Except ε α} (hc : Post Q c) (h : ∀ a, Q a → R a) : Post R c :=
  fun a ha => h a (hc a ha)

theorem Post.and {Q R : α → Prop} {c : Except ε α} (hc : Post Q c) (h : Post R c) :
    Post (fun a => Q a ∧ R a) c :=
  fun a ha => ⟨hc a ha, h a ha⟩

end
end Verif
