import Verif.Lemmas.Comp
import Verif.Spec.Unpack

namespace Verif
open Py

section
variable {P X W : Type} (E : Env P X W)

theorem storeAll_append (σ : StateId) (a b : List (Slot × Val P)) (M : Machine P W) :
    storeAll σ (a ++ b) M = storeAll σ b (storeAll σ a M) := by
  induction a generalizing M with
  | nil => rfl
  | cons p a ih => obtain ⟨sl, v⟩ := p; simp only [List.cons_append, storeAll, ih]

theorem storeAll_mem (σ : StateId) (a : List (Slot × Val P)) (M : Machine P W) :
    (storeAll σ a M).mem = M.mem := by
  induction a generalizing M with
  | nil => rfl
  | cons p a ih => obtain ⟨sl, v⟩ := p; simp only [storeAll, ih]; rfl

/-- `M` with another memory. -/
def Machine.withMem (M : Machine P W) (m : Mem P W) : Machine P W := { M with mem := m }

theorem storeAll_withMem (σ : StateId) (a : List (Slot × Val P)) (M : Machine P W) (m : Mem P W) :
    storeAll σ a (M.withMem m) = (storeAll σ a M).withMem m := by
  induction a generalizing M with
  | nil => rfl
  | cons p a ih =>
    obtain ⟨sl, v⟩ := p
    simp only [storeAll]
    rw [← ih]
    rfl

theorem withMem_withMem (M : Machine P W) (m m' : Mem P W) :
    (M.withMem m).withMem m' = M.withMem m' := rfl

/-- How an assignment ends. -/
def EndsWith (ops : PyOps P X W) : Option (UnpackErr P) → Res X Unit → Prop
  | none, r => r = .ok ()
  | some .count, r => r = .raise .valueErr
  | some (.notIterable v), r => ∃ e m m', r = .raise e ∧ ops.iter v m = .raise e m'

theorem runPy_ret {α} (E : Env P X W) (c : PyM P X W α) (M : Machine P W) {a m}
    (h : c M.mem = .ret a m) : runPy E c M = (.ok a, M.withMem m) := by
  simp only [runPy, h, runProc]; rfl

theorem runPy_raise {α} (E : Env P X W) (c : PyM P X W α) (M : Machine P W) {e m}
    (h : c M.mem = .raise e m) : runPy E c M = (.raise e, M.withMem m) := by
  simp only [runPy, h, runProc]; rfl

variable {items : Val P → Option (List (Val P))} {At : Mem P W → Val P → List (Val P) → Prop}

mutual
theorem assign_spec (law : IterLaw E.ops items At) (σ : StateId) :
    ∀ (t : Target) (v : Val P) (M : Machine P W), t.ready →
    ∃ r m', assignTarget E σ t v M = (r, (storeAll σ (destructure items t v).1 M).withMem m') ∧
      EndsWith E.ops (destructure items t v).2 r ∧ ∀ jt ws, At M.mem jt ws → At m' jt ws
  | .var name read sr sw, v, M, hr => by
    cases sw with
    | none => simp [Target.ready] at hr
    | some sl =>
      refine ⟨.ok (), M.mem, ?_, ?_, fun _ _ h => h⟩
      · simp only [assignTarget, destructure]
        rfl
      · simp [destructure, EndsWith]
  | .many [], v, M, hr => by simp [Target.ready] at hr
  | .many [t], v, M, hr => by
    simp only [Target.ready, Target.allReady] at hr
    have := assign_spec law σ t v M hr.2.1
    simpa only [assignTarget, destructure] using this
  | .many (t1 :: t2 :: ts), v, M, hr => by
    simp only [Target.ready] at hr
    have ha : assignTarget E σ (.many (t1 :: t2 :: ts)) v =
        (runPy E (E.ops.iter v) >>= fun it => unpackTargets E σ (t1 :: t2 :: ts) it) := by
      rw [assignTarget]; simp
    rw [ha]
    cases hi : items v with
    | none =>
      obtain ⟨e, m', h1, h2⟩ := law.iter_fails v M.mem hi
      have hd : destructure items (.many (t1 :: t2 :: ts)) v = ([], some (.notIterable v)) := by
        rw [destructure]
        · simp only [hi]
        · simp
      rw [hd]
      refine ⟨.raise e, m', ?_, ⟨e, M.mem, m', rfl, h1⟩, h2⟩
      exact Comp.bind_raise (runPy_raise E _ M h1)
    | some vs =>
      obtain ⟨it, m', h1, h2, h3⟩ := law.iter_ok v vs M.mem hi
      have hd : destructure items (.many (t1 :: t2 :: ts)) v =
          destructureAll items (t1 :: t2 :: ts) vs := by
        rw [destructure]
        · simp only [hi]
        · simp
      rw [hd, Comp.bind_ok (runPy_ret E _ M h1)]
      obtain ⟨r, m2, g1, g2, g3⟩ := unpack_spec law σ (t1 :: t2 :: ts) it vs (M.withMem m') hr.2 h2
      refine ⟨r, m2, ?_, g2, ?_⟩
      · rw [g1, storeAll_withMem, withMem_withMem]
      · intro jt ws hj
        exact g3 jt ws (h3 jt ws hj).1 (h3 jt ws hj).2
theorem unpack_spec (law : IterLaw E.ops items At) (σ : StateId) :
    ∀ (ts : List Target) (it : Val P) (vs : List (Val P)) (M : Machine P W), Target.allReady ts →
    At M.mem it vs →
    ∃ r m', unpackTargets E σ ts it M = (r, (storeAll σ (destructureAll items ts vs).1 M).withMem m') ∧
      EndsWith E.ops (destructureAll items ts vs).2 r ∧
      ∀ jt ws, At M.mem jt ws → jt ≠ it → At m' jt ws
  | [], it, [], M, _, hat => by
    obtain ⟨m', h1, h2⟩ := law.next_end it M.mem hat
    refine ⟨.ok (), m', ?_, by simp [destructureAll, EndsWith], h2⟩
    simp only [unpackTargets, unpackEnd, destructureAll]
    rw [Comp.bind_ok (runPy_ret E _ M h1)]
    rfl
  | [], it, v :: vs, M, _, hat => by
    obtain ⟨m', h1, _, h3⟩ := law.next_item it v vs M.mem hat
    refine ⟨.raise .valueErr, m', ?_, by simp [destructureAll, EndsWith], h3⟩
    simp only [unpackTargets, unpackEnd, destructureAll]
    rw [Comp.bind_ok (runPy_ret E _ M h1)]
    rfl
  | t :: ts, it, [], M, _, hat => by
    obtain ⟨m', h1, h2⟩ := law.next_end it M.mem hat
    refine ⟨.raise .valueErr, m', ?_, by simp [destructureAll, EndsWith], h2⟩
    simp only [unpackTargets, destructureAll]
    rw [Comp.bind_ok (runPy_ret E _ M h1)]
    rfl
  | t :: ts, it, v :: vs, M, hr, hat => by
    simp only [Target.allReady] at hr
    obtain ⟨m', h1, h2, h3⟩ := law.next_item it v vs M.mem hat
    simp only [unpackTargets]
    rw [Comp.bind_ok (runPy_ret E _ M h1)]
    obtain ⟨r, m2, g1, g2, g3⟩ := assign_spec law σ t v (M.withMem m') hr.1
    simp only [destructureAll]
    rcases hd : destructure items t v with ⟨a, o⟩
    rw [hd] at g1 g2
    cases o with
    | some e =>
      have hraise : ∃ x, r = .raise x := by
        cases e with
        | count => exact ⟨_, g2⟩
        | notIterable w => obtain ⟨x, _, _, h, _⟩ := g2; exact ⟨x, h⟩
      obtain ⟨x, rfl⟩ := hraise
      refine ⟨.raise x, m2, ?_, g2, ?_⟩
      · show (assignTarget E σ t v >>= fun _ => unpackTargets E σ ts it) (M.withMem m') = _
        rw [Comp.bind_raise g1, storeAll_withMem, withMem_withMem]
      · intro jt ws hj hne
        exact g3 jt ws (h3 jt ws hj hne)
    | none =>
      simp only [EndsWith] at g2
      subst g2
      obtain ⟨r3, m3, k1, k2, k3⟩ := unpack_spec law σ ts it vs
        ((storeAll σ a (M.withMem m')).withMem m2) hr.2 (g3 it vs h2)
      refine ⟨r3, m3, ?_, k2, ?_⟩
      · show (assignTarget E σ t v >>= fun _ => unpackTargets E σ ts it) (M.withMem m') = _
        rw [Comp.bind_ok g1, k1]
        simp only [storeAll_withMem, withMem_withMem, storeAll_append]
      · intro jt ws hj hne
        exact k3 jt ws (g3 jt ws (h3 jt ws hj hne)) hne
end

end
end Verif
