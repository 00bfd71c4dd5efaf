import Verif.Lemmas.Comp
import Verif.Spec.Eval

namespace Verif
open Py

section
variable {P X W α : Type} (E : Env P X W)

theorem evalList_eq (σ : StateId) (es : List Expr) :
    evalList E σ es = inOrder (es.map (eval E σ)) := by
  induction es with
  | nil => rfl
  | cons e es ih => simp only [evalList, List.map_cons, inOrder, ih]

/-! ### Logical operators -/

/-- Python's operator with a single test, as a function. -/
def shortcut (test : Val P → Comp P X W Bool) (stop : Bool) (c : Comp P X W (Val P)) :
    List (Comp P X W (Val P)) → Comp P X W (Val P)
  | [] => c
  | d :: ds => do
    let v ← c
    let b ← test v
    if b = stop then pure v else shortcut test stop d ds

theorem evalAnd_eq (hs : StableTest (truthOf E)) (σ : StateId) (es : List Expr)
    (c : Comp P X W (Val P)) :
    (c >>= evalAnd E σ es) = shortcut (truthOf E) false c (es.map (eval E σ)) := by
  induction es generalizing c with
  | nil => exact Comp.bind_pure c
  | cons e es ih =>
    simp only [List.map_cons, shortcut]
    rw [← ih (eval E σ e)]
    funext M
    simp only [Comp.bind_run]
    rcases hc : c M with ⟨r, M1⟩
    cases r with
    | raise x => rfl
    | timeout => rfl
    | ok v =>
      simp only [Comp.next, evalAnd, Comp.bind_run]
      rcases ht : truthOf E v M1 with ⟨r2, M2⟩
      cases r2 with
      | raise x => rfl
      | timeout => rfl
      | ok b =>
        cases b with
        | false => rfl
        | true =>
          have := hs v M1 true M2 ht
          unfold Gives at this
          simp [Comp.next, Comp.bind_run, this]

theorem evalOr_eq (hs : StableTest (truthOf E)) (σ : StateId) (es : List Expr)
    (c : Comp P X W (Val P)) :
    (c >>= evalOr E σ es) = shortcut (truthOf E) true c (es.map (eval E σ)) := by
  induction es generalizing c with
  | nil => exact Comp.bind_pure c
  | cons e es ih =>
    simp only [List.map_cons, shortcut]
    rw [← ih (eval E σ e)]
    funext M
    simp only [Comp.bind_run]
    rcases hc : c M with ⟨r, M1⟩
    cases r with
    | raise x => rfl
    | timeout => rfl
    | ok v =>
      simp only [Comp.next, evalOr, Comp.bind_run]
      rcases ht : truthOf E v M1 with ⟨r2, M2⟩
      cases r2 with
      | raise x => rfl
      | timeout => rfl
      | ok b =>
        cases b with
        | true => rfl
        | false =>
          have := hs v M1 false M2 ht
          unfold Gives at this
          simp [Comp.next, Comp.bind_run, this]

theorem AllTested.snoc_shift {test : Val P → Comp P X W Bool} {stop : Bool}
    {c d : Comp P X W (Val P)} {ds : List (Comp P X W (Val P))} {v : Val P} {M M1 M2 : Machine P W}
    {r} (h1 : Gives c M v M1) (h2 : Gives (test v) M1 (!stop) M2)
    (h : Shortcut test stop (d :: ds) M2 r) : Shortcut test stop (c :: d :: ds) M r := by
  generalize hl : d :: ds = l at h
  cases h with
  | decides ha hc hp ht => exact .decides (pre := c :: _) (.cons h1 h2 ha) hc hp ht
  | last ha => exact .last (pre := c :: _) (.cons h1 h2 ha)
  | fails ha hc => exact .fails (pre := c :: _) (.cons h1 h2 ha) hc
  | testFails ha hc hp ht => exact .testFails (pre := c :: _) (.cons h1 h2 ha) hc hp ht

theorem shortcut_sound (test : Val P → Comp P X W Bool) (stop : Bool) (c : Comp P X W (Val P))
    (cs : List (Comp P X W (Val P))) (M : Machine P W)
    (ht : (shortcut test stop c cs M).1 ≠ .timeout) :
    Shortcut test stop (c :: cs) M (shortcut test stop c cs M) := by
  induction cs generalizing c M with
  | nil => exact .last (pre := []) (.nil M)
  | cons d ds ih =>
    simp only [shortcut, Comp.bind_run] at ht ⊢
    rcases hc : c M with ⟨r, M1⟩
    rw [hc] at ht
    cases r with
    | raise e => exact .fails (pre := []) (.nil M) hc
    | timeout => exact absurd rfl ht
    | ok v =>
      simp only [Comp.next, Comp.bind_run] at ht ⊢
      rcases hb : test v M1 with ⟨r2, M2⟩
      rw [hb] at ht
      cases r2 with
      | raise e => exact .testFails (pre := []) (.nil M) hc (by simp) hb
      | timeout => exact absurd rfl ht
      | ok b =>
        by_cases hbs : b = stop
        · subst hbs
          simp only [if_true] at ht ⊢
          exact .decides (pre := []) (.nil M) hc (by simp) hb
        · have hn : b = !stop := by cases b <;> cases stop <;> simp_all
          simp only [if_neg hbs] at ht ⊢
          exact AllTested.snoc_shift hc (hn ▸ hb) (ih d M2 ht)

theorem shortcut_skip (test : Val P → Comp P X W Bool) (stop : Bool)
    (pre : List (Comp P X W (Val P))) (c d : Comp P X W (Val P)) (post l : List (Comp P X W (Val P)))
    (M M1 : Machine P W) (h : AllTested test (!stop) pre M M1) (he : d :: l = pre ++ c :: post) :
    shortcut test stop d l M = shortcut test stop c post M1 := by
  induction pre generalizing d l M with
  | nil => cases h; cases he; rfl
  | cons p ps ih =>
    cases h with
    | cons h1 h2 h3 =>
      simp only [List.cons_append, List.cons.injEq] at he
      obtain ⟨rfl, rfl⟩ := he
      obtain ⟨x, xs, hx⟩ : ∃ x xs, ps ++ c :: post = x :: xs := by
        cases ps with
        | nil => exact ⟨_, _, rfl⟩
        | cons a b => exact ⟨_, _, rfl⟩
      have := ih x xs _ h3 hx.symm
      rw [hx, ← this]
      simp only [shortcut]
      rw [Comp.bind_ok h1, Comp.bind_ok h2]
      cases stop <;> rfl

theorem shortcut_complete (test : Val P → Comp P X W Bool) (stop : Bool) (c : Comp P X W (Val P))
    (cs : List (Comp P X W (Val P))) (M : Machine P W) (r) (h : Shortcut test stop (c :: cs) M r) :
    shortcut test stop c cs M = r := by
  generalize hl : c :: cs = l at h
  cases h with
  | decides ha hc hp ht =>
    rw [shortcut_skip test stop _ _ _ _ _ _ _ ha hl]
    rename_i post _ _ _ _ 
    cases post with
    | nil => exact absurd rfl hp
    | cons d ds =>
      simp only [shortcut]
      rw [Comp.bind_ok hc, Comp.bind_ok ht, if_pos rfl]
      rfl
  | last ha => rw [shortcut_skip test stop _ _ _ _ _ _ _ ha hl]; rfl
  | fails ha hc =>
    rw [shortcut_skip test stop _ _ _ _ _ _ _ ha hl]
    rename_i post _ _ _
    cases post with
    | nil => exact hc
    | cons d ds => exact Comp.bind_raise hc
  | testFails ha hc hp ht =>
    rw [shortcut_skip test stop _ _ _ _ _ _ _ ha hl]
    rename_i post _ _ _ _ _
    cases post with
    | nil => exact absurd rfl hp
    | cons d ds =>
      simp only [shortcut]
      rw [Comp.bind_ok hc, Comp.bind_raise ht]

/-! ### Chains -/

theorem evalChain_eq (σ : StateId) (ops : List Str) (es : List Expr) (hl : ops.length = es.length)
    (acc : Comp P X W (Val P)) :
    (acc >>= evalChain E σ ops es) = leftNested (binOp E) acc (ops.zip (es.map (eval E σ))) := by
  induction ops generalizing es acc with
  | nil =>
    cases es with
    | nil => exact Comp.bind_pure acc
    | cons e es => simp at hl
  | cons op ops ih =>
    cases es with
    | nil => simp at hl
    | cons e es =>
      simp only [List.map_cons, List.zip_cons_cons, leftNested]
      rw [← ih es (by simpa using hl)]
      simp only [evalChain, Comp.bind_assoc]

theorem evalBits_eq (σ : StateId) (op : Str) (es : List Expr) (acc : Comp P X W (Val P)) :
    (acc >>= evalBits E σ op es) =
      leftNested (binOp E) acc (es.map (fun e => (op, eval E σ e))) := by
  induction es generalizing acc with
  | nil => exact Comp.bind_pure acc
  | cons e es ih =>
    simp only [List.map_cons, leftNested]
    rw [← ih]
    simp only [evalBits, Comp.bind_assoc]

theorem leftNested_append (bin : Str → Val P → Val P → Comp P X W (Val P)) (acc : Comp P X W (Val P))
    (l r : List (Str × Comp P X W (Val P))) :
    leftNested bin acc (l ++ r) = leftNested bin (leftNested bin acc l) r := by
  induction l generalizing acc with
  | nil => rfl
  | cons p l ih => obtain ⟨op, c⟩ := p; simp only [List.cons_append, leftNested, ih]

theorem leftNested_raise (bin : Str → Val P → Val P → Comp P X W (Val P)) (acc : Comp P X W (Val P))
    (r : List (Str × Comp P X W (Val P))) {M M' : Machine P W} {e : Exn X}
    (h : acc M = (.raise e, M')) : leftNested bin acc r M = (.raise e, M') := by
  induction r generalizing acc with
  | nil => exact h
  | cons p r ih =>
    obtain ⟨op, c⟩ := p
    exact ih _ (Comp.bind_raise h)

end
end Verif
