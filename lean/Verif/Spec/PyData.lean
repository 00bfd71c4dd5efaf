import Verif.Spec.Templates
import Verif.Model.Machine

/-! Which Python objects stand for which data, and how they behave. -/

namespace Verif.Spec
open Verif.Py

/-- The truth value of an object, without side effects. -/
def TruthIs {P X W : Type} (ops : PyOps P X W) : Val P → Bool → Prop
  | .py p, t => ∀ m, ops.truth p m = .ret t m
  | .none, t => t = false
  | .bool b, t => t = b
  | .str s, t => t = !s.isEmpty
  | _, _ => False

/-- Objects `rep v d` stand for the data `d`, and are not modified while the document is made; `pending w it l`: in
the world `w` the iterator `it` has still to give the objects `l`.

Truth values, texts and fields are found without side effects. `iter` gives a new iterator, `next` moves the
given iterator only. Lists are shorter than the bound on the number of iterations. -/
structure PyData {P X W : Type} (ops : PyOps P X W) (fuel : Nat) where
  rep : Val P → Data → Prop
  pending : W → Val P → List (Val P) → Prop
  string : ∀ s, rep (.str s) (Data.string s)
  truth : ∀ {v d}, rep v d → TruthIs ops v d.truth
  text : ∀ {v t s}, rep v (.atom t s) →
    v = .str s ∨ (v ≠ .none ∧ (∀ u, v ≠ .str u) ∧ ∀ m, ops.str v m = .ret s m)
  field : ∀ {v d n d'}, rep v d → d.field n = some d' →
    ∃ v', (∀ m, ops.getattr v n m = .ret v' m) ∧ rep v' d'
  iter : ∀ {v ds}, rep v (.list ds) → ds.length < fuel ∧
    ∃ ps : List (Val P × Data), ps.map Prod.snd = ds ∧ (∀ p ∈ ps, rep p.1 p.2) ∧
    ∀ w, ∃ it w', (∀ m, m.world = w → ops.iter v m = .ret it { m with world := w' }) ∧ pending w' it (ps.map Prod.fst) ∧
      ∀ it' l, pending w it' l → it' ≠ it ∧ pending w' it' l
  next : ∀ {w it l}, pending w it l → ∃ w', (∀ m, m.world = w → ops.next it m = .ret l.head? { m with world := w' }) ∧
    pending w' it l.tail ∧ ∀ it' l', it' ≠ it → pending w it' l' → pending w' it' l'

end Verif.Spec
