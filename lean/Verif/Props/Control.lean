import Verif.Lemmas.Control
import Verif.Spec.Toy

/-! Properties of assignments and control blocks: C49-C53. -/

namespace Verif
open Py

section
variable {P X W : Type} (E : Env P X W)

/-! ### C49 Unpacking assignment -/

/-- The effect of an assignment, for every nested target and value, in a Python whose iterators work:
exactly the assignments listed by `destructure` are made, in the same order, and it ends as
`destructure` tells: normally, with `ValueError` for a wrong number of elements, or with the exception of
`iter` for a value that is not iterable. No other slot and no other state is touched. -/
theorem C49_assign {items : Val P → Option (List (Val P))}
    {At : Mem P W → Val P → List (Val P) → Prop} (law : IterLaw E.ops items At) (σ : StateId)
    (t : Target) (v : Val P) (M : Machine P W) (hr : t.ready) :
    (assignTarget E σ t v M).2.states = (storeAll σ (destructure items t v).1 M).states ∧
    EndsWith E.ops (destructure items t v).2 (assignTarget E σ t v M).1 := by
  obtain ⟨r, m', h1, h2, _⟩ := assign_spec E law σ t v M hr
  rw [h1]
  exact ⟨rfl, h2⟩

mutual
/-- The value has the shape of the target. -/
inductive Fits (items : Val P → Option (List (Val P))) : Target → Val P → Prop
  | var (name read sr sw v) : Fits items (.var name read sr sw) v
  | single {t v} : Fits items t v → Fits items (.many [t]) v
  | unpack {t1 t2 ts v vs} : items v = some vs → FitsAll items (t1 :: t2 :: ts) vs →
      Fits items (.many (t1 :: t2 :: ts)) v
inductive FitsAll (items : Val P → Option (List (Val P))) : List Target → List (Val P) → Prop
  | nil : FitsAll items [] []
  | cons {t ts v vs} : Fits items t v → FitsAll items ts vs → FitsAll items (t :: ts) (v :: vs)
end

mutual
theorem destructure_fits (items : Val P → Option (List (Val P))) :
    ∀ (t : Target) (v : Val P), t.ready → ((destructure items t v).2 = none ↔ Fits items t v)
  | .var name read sr sw, v, _ => by
    simp only [destructure, true_iff]
    exact .var ..
  | .many [], v, hr => by simp [Target.ready] at hr
  | .many [t], v, hr => by
    simp only [Target.ready, Target.allReady] at hr
    simp only [destructure]
    rw [destructure_fits items t v hr.2.1]
    exact ⟨.single, fun h => by cases h; assumption⟩
  | .many (t1 :: t2 :: ts), v, hr => by
    simp only [Target.ready] at hr
    rw [destructure]
    · cases hi : items v with
      | none =>
        simp only [reduceCtorEq, false_iff]
        intro h
        cases h with
        | unpack h1 _ => rw [hi] at h1; cases h1
      | some vs =>
        simp only
        rw [destructureAll_fits items _ vs hr.2]
        constructor
        · exact .unpack hi
        · intro h
          cases h with
          | unpack h1 h2 => rw [hi] at h1; cases h1; exact h2
    · simp
theorem destructureAll_fits (items : Val P → Option (List (Val P))) :
    ∀ (ts : List Target) (vs : List (Val P)), Target.allReady ts →
      ((destructureAll items ts vs).2 = none ↔ FitsAll items ts vs)
  | [], [], _ => by
    simp only [destructureAll]
    exact ⟨fun _ => .nil, fun _ => by simp⟩
  | [], v :: vs, _ => by
    simp only [destructureAll]
    constructor
    · intro h; simp at h
    · intro h; cases h
  | t :: ts, [], _ => by
    simp only [destructureAll]
    constructor
    · intro h; simp at h
    · intro h; cases h
  | t :: ts, v :: vs, hr => by
    simp only [Target.allReady] at hr
    simp only [destructureAll]
    have h1 := destructure_fits items t v hr.1
    have h2 := destructureAll_fits items ts vs hr.2
    rcases hd : destructure items t v with ⟨a, o⟩
    rw [hd] at h1
    cases o with
    | some e =>
      simp only [reduceCtorEq, false_iff] at h1 ⊢
      intro h
      cases h with
      | cons g _ => exact h1 g
    | none =>
      simp only [true_iff] at h1 ⊢
      rw [h2]
      exact ⟨fun h => .cons h1 h, fun h => by cases h; assumption⟩
end

/-- Assignment succeeds exactly when the value has the shape of the target. -/
theorem C49_success_iff {items : Val P → Option (List (Val P))}
    {At : Mem P W → Val P → List (Val P) → Prop} (law : IterLaw E.ops items At) (σ : StateId)
    (t : Target) (v : Val P) (M : Machine P W) (hr : t.ready) :
    (assignTarget E σ t v M).1 = .ok () ↔ Fits items t v := by
  rw [← destructure_fits items t v hr]
  have h := (C49_assign E law σ t v M hr).2
  cases ho : (destructure items t v).2 with
  | none => rw [ho] at h; simpa [EndsWith] using h
  | some e =>
    rw [ho] at h
    simp only [reduceCtorEq, iff_false]
    intro hk
    rw [hk] at h
    cases e with
    | count => cases h
    | notIterable w => obtain ⟨_, _, _, h, _⟩ := h; cases h

/-- Value of a slot after a list of assignments to distinct slots. -/
theorem storeAll_get (σ : StateId) (bs : List (Slot × Val P)) (M : Machine P W)
    (hn : (bs.map Prod.fst).Nodup) :
    (∀ sl v, (sl, v) ∈ bs → ((storeAll σ bs M).states σ).values sl = some v) ∧
    (∀ τ sl, τ ≠ σ ∨ sl ∉ bs.map Prod.fst →
      ((storeAll σ bs M).states τ).values sl = (M.states τ).values sl) := by
  induction bs generalizing M with
  | nil => exact ⟨fun _ _ h => by simp at h, fun _ _ _ => rfl⟩
  | cons p bs ih =>
    obtain ⟨s0, v0⟩ := p
    simp only [List.map_cons, List.nodup_cons] at hn
    obtain ⟨h1, h2⟩ := ih (M.updState σ (fun s =>
      { s with values := fun t => if t = s0 then some v0 else s.values t })) hn.2
    constructor
    · intro sl v hm
      simp only [List.mem_cons, Prod.mk.injEq] at hm
      rcases hm with ⟨rfl, rfl⟩ | hm
      · simp only [storeAll]
        rw [h2 σ sl (Or.inr hn.1)]
        simp [Machine.updState]
      · exact h1 sl v hm
    · intro τ sl h
      simp only [storeAll]
      rw [h2 τ sl (by
        rcases h with h | h
        · exact Or.inl h
        · right; intro hc; exact h (by simp [hc]))]
      rcases h with h | h
      · simp [Machine.updState, h]
      · have : sl ≠ s0 := by rintro rfl; simp at h
        simp only [Machine.updState]
        by_cases hτ : τ = σ
        · subst hτ; simp [this]
        · simp [hτ]

/-- The flat case: n ≥ 2 variables in different slots. They get the n items if there are exactly n;
otherwise `ValueError` is raised. -/
theorem C49_flat {items : Val P → Option (List (Val P))}
    {At : Mem P W → Val P → List (Val P) → Prop} (law : IterLaw E.ops items At) (σ : StateId)
    (xs : List (Str × Slot)) (hx : 2 ≤ xs.length) (hn : (xs.map Prod.snd).Nodup) (v : Val P)
    (vs : List (Val P)) (hv : items v = some vs) (M : Machine P W) :
    let t := Target.many (xs.map (fun x => .var x.1 false none (some x.2)))
    (vs.length = xs.length → (assignTarget E σ t v M).1 = .ok () ∧
      ∀ (i : Nat) sl w, (xs.map Prod.snd)[i]? = some sl → vs[i]? = some w →
        (((assignTarget E σ t v M).2).states σ).values sl = some w) ∧
    (vs.length ≠ xs.length → (assignTarget E σ t v M).1 = .raise .valueErr) := by
  intro t
  have hready : t.ready := by
    have : ∀ l : List (Str × Slot),
        Target.allReady (l.map (fun x => .var x.1 false none (some x.2))) := by
      intro l
      induction l with
      | nil => trivial
      | cons a l ih => exact ⟨rfl, ih⟩
    refine ⟨?_, this xs⟩
    cases xs with
    | nil => simp at hx
    | cons a l => simp
  have hd : destructure items t v =
      destructureAll items (xs.map (fun x => .var x.1 false none (some x.2))) vs := by
    obtain _ | ⟨a, _ | ⟨b, l⟩⟩ := xs
    · simp at hx
    · simp at hx
    · simp only [t, List.map_cons]
      rw [destructure]
      · simp only [hv]
      · simp
  have hall : ∀ (l : List (Str × Slot)) (ws : List (Val P)),
      (ws.length = l.length → destructureAll items (l.map (fun x => .var x.1 false none (some x.2))) ws =
        ((l.map Prod.snd).zip ws, none)) ∧
      (ws.length ≠ l.length → (destructureAll items
        (l.map (fun x => .var x.1 false none (some x.2))) ws).2 = some .count) := by
    intro l
    induction l with
    | nil =>
      intro ws
      constructor
      · intro h
        obtain rfl : ws = [] := by simpa using h
        rfl
      · intro h
        cases ws with
        | nil => simp at h
        | cons w ws => rfl
    | cons a l ih =>
      intro ws
      cases ws with
      | nil => exact ⟨by simp, fun _ => rfl⟩
      | cons w ws =>
        constructor
        · intro h
          simp only [List.map_cons, destructureAll, destructure]
          rw [(ih ws).1 (by simpa using h)]
          rfl
        · intro h
          simp only [List.map_cons, destructureAll, destructure]
          exact (ih ws).2 (by simpa using h)
  obtain ⟨h1, h2⟩ := C49_assign E law σ t v M hready
  rw [hd] at h1 h2
  constructor
  · intro hl
    rw [(hall xs vs).1 hl] at h1 h2
    refine ⟨h2, ?_⟩
    intro i sl w hi hw
    rw [h1]
    have hnd : (((xs.map Prod.snd).zip vs).map Prod.fst).Nodup := by
      rw [List.map_fst_zip]
      · exact hn
      · simp [hl]
    refine (storeAll_get σ _ M hnd).1 sl w ?_
    rw [List.mem_iff_getElem?]
    exact ⟨i, by simp [List.getElem?_zip_eq_some, hi, hw]⟩
  · intro hl
    rw [(hall xs vs).2 hl] at h2
    exact h2

/-- Elements of the sequences of the miniature Python. -/
def Toy.items : Val Toy.Obj → Option (List (Val Toy.Obj))
  | .py (.seq l) => some (l.map .py)
  | _ => none

/-- The iterators of the miniature Python satisfy the laws. -/
theorem toyIterLaw : IterLaw Toy.ops Toy.items (fun m it vs =>
    ∃ i l, it = .py (.iter i) ∧ m.world.iters[i]? = some l ∧ vs = l.map .py) where
  iter_ok := by
    intro v vs m h
    unfold Toy.items at h
    split at h
    · rename_i l
      cases h
      refine ⟨_, _, rfl, ⟨m.world.iters.length, l, rfl, by simp, rfl⟩, ?_⟩
      rintro jt ws ⟨i, l', rfl, h1, rfl⟩
      have hlt : i < m.world.iters.length := by
        by_contra hc
        rw [List.getElem?_eq_none (by omega)] at h1
        cases h1
      refine ⟨⟨i, l', rfl, ?_, rfl⟩, ?_⟩
      · simp only
        rw [List.getElem?_append_left hlt]
        exact h1
      · intro hc
        injection hc with hc
        injection hc with hc
        omega
    · cases h
  iter_fails := by
    intro v m h
    refine ⟨.user 4, m, ?_, fun _ _ h => h⟩
    unfold Toy.items at h
    split at h
    · cases h
    · rename_i hn
      simp only [Toy.ops]
      unfold Toy.iter
      split
      · rename_i l; exact absurd rfl (hn l)
      · rfl
  next_item := by
    rintro it v vs m ⟨i, l, rfl, h1, h2⟩
    cases l with
    | nil => simp at h2
    | cons x xs =>
      simp only [List.map_cons, List.cons.injEq] at h2
      obtain ⟨rfl, rfl⟩ := h2
      have hlt : i < m.world.iters.length := by
        by_contra hc
        rw [List.getElem?_eq_none (by omega)] at h1
        cases h1
      have hnx : Toy.nextIter i m = (some x, { m with world :=
          { m.world with iters := m.world.iters.set i xs } }) := by
        simp only [Toy.nextIter, h1]
      refine ⟨{ m with world := { m.world with iters := m.world.iters.set i xs } }, ?_,
        ⟨i, xs, rfl, by simp [hlt], rfl⟩, ?_⟩
      · simp only [Toy.ops, Toy.next, hnx]; rfl
      · rintro jt ws ⟨j, l', rfl, h3, rfl⟩ hne
        have : i ≠ j := by rintro rfl; exact hne rfl
        exact ⟨j, l', rfl, by simp [this, h3], rfl⟩
  next_end := by
    rintro it m ⟨i, l, rfl, h1, h2⟩
    have : l = [] := by cases l <;> simp_all
    subst this
    have hnx : Toy.nextIter i m = (none, m) := by simp only [Toy.nextIter, h1]
    refine ⟨m, ?_, fun _ _ h _ => h⟩
    simp only [Toy.ops, Toy.next, hnx]; rfl

/-- The target `a, (b, c)`. -/
def Toy.abc : Target := .many [.var (s!!"a") false none (some 1),
  .many [.var (s!!"b") false none (some 2), .var (s!!"c") false none (some 3)]]

-- a, (b, c) = [7, [8, 9]]
example : let r := (assignTarget Toy.env 0 Toy.abc (.py (.seq [.num 7, .seq [.num 8, .num 9]]))
      (Toy.machine []));
    r.1 = .ok () ∧ [1, 2, 3].map ((r.2.states 0).values ·) =
      [some (Toy.num 7), some (Toy.num 8), some (Toy.num 9)] := ⟨rfl, rfl⟩
-- a, (b, c) = [7, [8]]: `a` and `b` have been set already
example : let r := (assignTarget Toy.env 0 Toy.abc (.py (.seq [.num 7, .seq [.num 8]])) (Toy.machine []));
    r.1 = .raise .valueErr ∧ [1, 2, 3].map ((r.2.states 0).values ·) =
      [some (Toy.num 7), some (Toy.num 8), none] := ⟨rfl, rfl⟩

/-! ### C50 if -/

/-- The first clause with a true test is translated, after the tests of the earlier ones; later clauses
and the `else` clause do not matter. -/
theorem C50_first_true (σ : StateId) (pre post : List (Expr × Option (Stmt P))) (t : Expr)
    (b : Stmt P) (els : Option (Stmt P)) (M M1 M2 M3 : Machine P W) (v : Val P)
    (hpre : AllTested (truthOf E) false (pre.map (fun c => eval E σ c.1)) M M1)
    (hv : Gives (eval E σ t) M1 v M2) (ht : Gives (truthOf E v) M2 true M3) :
    transl E σ (.ifBlock (pre ++ (t, some b) :: post) els) M = placed σ (transl E σ b) M3 ∧
    transl E σ (.ifBlock (pre ++ (t, none) :: post) els) M = (.ok (some []), M3) := by
  constructor
  · simp only [transl]
    rw [Comp.bind_run, translIf_skip E σ pre _ _ M M1 hpre]
    simp only [translIf]
    rw [Comp.bind_ok hv, Comp.bind_ok ht, if_pos rfl]
    simp only [translBranch, translOpt_some, optBranch]
    rw [← withIndent_placed, ← Comp.bind_run]
  · simp only [transl]
    rw [Comp.bind_run, translIf_skip E σ pre _ _ M M1 hpre]
    simp only [translIf]
    rw [Comp.bind_ok hv, Comp.bind_ok ht, if_pos rfl]
    simp only [translBranch, translOpt_none, optBranch]
    rw [← Comp.bind_run, Comp.pure_bind, withIndent_nil]

/-- If no test is true then the body of the `else` clause is translated, or nothing. -/
theorem C50_none_true_partial (σ : StateId) (cs : List (Expr × Option (Stmt P))) (M M1 : Machine P W)
    (hpre : AllTested (truthOf E) false (cs.map (fun c => eval E σ c.1)) M M1) :
    (∀ b, transl E σ (.ifBlock cs (some (.elseClause (some b)))) M = placed σ (transl E σ b) M1) ∧
    transl E σ (.ifBlock cs none) M = (.ok (some []), M1) := by
  constructor
  · intro b
    simp only [transl]
    have h := translIf_skip E σ cs [] (translOpt E σ (some (.elseClause (some b)))) M M1 hpre
    rw [List.append_nil] at h
    rw [Comp.bind_run, h]
    simp only [translIf, optBranch, translOpt_some]
    rw [← withIndent_placed, ← Comp.bind_run]
    simp only [nodesBy, transl, translOpt_some, requiredBranch, Comp.bind_assoc]
    rfl
  · simp only [transl]
    have h := translIf_skip E σ cs [] (translOpt E σ none) M M1 hpre
    rw [List.append_nil] at h
    rw [Comp.bind_run, h]
    simp only [translIf, optBranch, translOpt_none]
    rfl

/-- A test that raises ends the block. -/
theorem C50_test_fails (σ : StateId) (pre post : List (Expr × Option (Stmt P))) (t : Expr)
    (b els : Option (Stmt P)) (M M1 M2 : Machine P W) (e : Exn X)
    (hpre : AllTested (truthOf E) false (pre.map (fun c => eval E σ c.1)) M M1)
    (hv : Raises (eval E σ t >>= truthOf E) M1 e M2) :
    transl E σ (.ifBlock (pre ++ (t, b) :: post) els) M = (.raise e, M2) := by
  simp only [transl]
  rw [Comp.bind_run, translIf_skip E σ pre _ _ M M1 hpre]
  simp only [translIf]
  rw [← Comp.bind_assoc, Comp.bind_raise hv]
  rfl

/-- An `else` clause without a body (allowed by the grammar) is an `AssertionError` instead of an empty
output, whenever it is reached. -/
theorem C50_not_in_general (σ : StateId) (cs : List (Expr × Option (Stmt P))) (M M1 : Machine P W)
    (hpre : AllTested (truthOf E) false (cs.map (fun c => eval E σ c.1)) M M1) :
    transl E σ (.ifBlock cs (some (.elseClause none))) M = (.raise .assertion, M1) := by
  simp only [transl]
  have h := translIf_skip E σ cs [] (translOpt E σ (some (.elseClause none))) M M1 hpre
  rw [List.append_nil] at h
  rw [Comp.bind_run, h]
  simp only [translIf, optBranch, translOpt_some, nodesBy, transl, translOpt_none, requiredBranch]
  rfl

/-- A block that outputs one text node. -/
def Toy.say (s : Str) : Stmt Toy.Obj := .line (.verbat s)

/-- The texts of the output nodes. -/
def Toy.texts (r : Res Nat (Option (List Ref)) × Toy.M) : Option (List NodeClass) :=
  match r.1 with
  | .ok o => some ((nodesOf o).map (fun i => (r.2.mem.nodes i).cls))
  | _ => none

-- if 0: A, elif 5: B, elif f(): C
example : let r := (transl Toy.env 0 (.ifBlock [(Toy.v 0, some (Toy.say (s!!"A"))),
      (Toy.v 1, some (Toy.say (s!!"B"))), (Toy.f 2, some (Toy.say (s!!"C")))] none)
      (Toy.machine [Toy.num 0, Toy.num 5, .py (.fn 4)]));
    Toy.texts r = some [.text (s!!"B")] ∧ r.2.mem.world.log = [] := ⟨rfl, rfl⟩

/-! ### C51 for -/

/-- A `for` block, with or without a body: the sequence is evaluated once, then the body is translated
for each element that the iterator delivers, after the assignment of the element to the targets; the
output is the concatenation. (`E.fuel` bounds the number of iterations in the model.) Partial: a block
that has an `else` clause but no body does something else, see `C51_not_in_general`. -/
theorem C51_for_partial (σ : StateId) (t : Target) (e : Expr) (b : Option (Stmt P))
    (hb : b.all (fun s => !s.isElse) = true) (M M' : Machine P W) (out : Option (List Ref)) :
    Gives (transl E σ (.forBlock t e b.toList)) M out M' ↔
    ∃ seq M1 it M2 run M3, Gives (eval E σ e) M seq M1 ∧ Gives (runPy E (E.ops.iter seq)) M1 it M2 ∧
      ForRun (runPy E (E.ops.next it)) (assignTarget E σ t)
        (b.elim (pure []) (fun s => do return nodesOf (← transl E σ s))) M2 run M3 ∧
      run.length < E.fuel ∧
      Gives (placed (X := X) σ (return some (run.map Prod.snd).flatten)) M3 out M' := by
  unfold Gives
  have hbody : optBranch (b.toList.map (nodesBy E σ)).head? =
      b.elim (pure []) (fun s => do return nodesOf (← transl E σ s)) := by
    cases b <;> rfl
  have hl : lastElse b.toList (b.toList.map (nodesBy E σ)) = none := by
    cases b with
    | none => rfl
    | some s =>
      have : s.isElse = false := by simpa using hb
      simp [lastElse, this]
  simp only [transl, translEach_eq, hbody]
  rw [Comp.bind_eq_ok]
  constructor
  · rintro ⟨seq, M1, h1, h⟩
    rw [Comp.bind_eq_ok] at h
    obtain ⟨it, M2, h2, h⟩ := h
    rw [Comp.bind_eq_ok] at h
    obtain ⟨r, M3, h3, h⟩ := h
    rw [forLoop_run] at h3
    obtain ⟨run, g1, g2, g3⟩ := h3
    refine ⟨seq, M1, it, M2, run, M3, h1, h2, g1, g2, ?_⟩
    subst g3
    rw [hl] at h
    have : loopResult ([] ++ (run.map Prod.snd).flatten, run.isEmpty && true)
        (none : Option (Comp P X W (List Ref))) = pure (run.map Prod.snd).flatten := by
      unfold loopResult
      cases run.isEmpty <;> rfl
    rw [this] at h
    exact h
  · rintro ⟨seq, M1, it, M2, run, M3, h1, h2, g1, g2, h⟩
    refine ⟨seq, M1, h1, ?_⟩
    rw [Comp.bind_ok h2, Comp.bind_eq_ok]
    refine ⟨_, M3, (forLoop_run _ _ _ _ _ _ _ _ _).2 ⟨run, g1, g2, rfl⟩, ?_⟩
    have : loopResult ([] ++ (run.map Prod.snd).flatten, run.isEmpty && true)
        (none : Option (Comp P X W (List Ref))) = pure (run.map Prod.snd).flatten := by
      unfold loopResult
      cases run.isEmpty <;> rfl
    rw [hl, this]
    exact h

/-- A `for` block with a body and an `else` clause: the same, but the clause is used if there was no
element at all. -/
theorem C51_for_else (σ : StateId) (t : Target) (e : Expr) (b eb : Stmt P)
    (M M' : Machine P W) (out : Option (List Ref)) :
    Gives (transl E σ (.forBlock t e [b, .elseClause (some eb)])) M out M' ↔
    ∃ seq M1 it M2 run M3, Gives (eval E σ e) M seq M1 ∧ Gives (runPy E (E.ops.iter seq)) M1 it M2 ∧
      ForRun (runPy E (E.ops.next it)) (assignTarget E σ t)
        (do return nodesOf (← transl E σ b)) M2 run M3 ∧ run.length < E.fuel ∧
      ((run ≠ [] ∧ Gives (placed (X := X) σ (return some (run.map Prod.snd).flatten)) M3 out M') ∨
       (run = [] ∧ Gives (placed σ (transl E σ eb)) M3 out M')) := by
  unfold Gives
  simp only [transl, translEach_eq, List.map_cons, List.map_nil, List.head?_cons, optBranch]
  rw [Comp.bind_eq_ok]
  have hl : lastElse [b, .elseClause (some eb)]
      [nodesBy E σ b, nodesBy E σ (.elseClause (some eb))] =
      some (nodesBy E σ eb) := by
    simp only [lastElse, List.getLast?_cons_cons, List.getLast?_singleton, Option.any, Stmt.isElse,
      if_true, Option.some.injEq]
    simp only [nodesBy, transl, translOpt_some, requiredBranch, Comp.bind_assoc]
    rfl
  rw [hl]
  have hres : ∀ run : List (Val P × List Ref),
      loopResult ([] ++ (run.map Prod.snd).flatten, run.isEmpty && true) (some (nodesBy E σ eb)) =
        if run = [] then nodesBy E σ eb else pure (run.map Prod.snd).flatten := by
    intro run
    cases run <;> rfl
  constructor
  · rintro ⟨seq, M1, h1, h⟩
    rw [Comp.bind_eq_ok] at h
    obtain ⟨it, M2, h2, h⟩ := h
    rw [Comp.bind_eq_ok] at h
    obtain ⟨r, M3, h3, h⟩ := h
    rw [forLoop_run] at h3
    obtain ⟨run, g1, g2, g3⟩ := h3
    refine ⟨seq, M1, it, M2, run, M3, h1, h2, g1, g2, ?_⟩
    subst g3
    rw [hres] at h
    by_cases hr : run = []
    · rw [if_pos hr] at h
      exact Or.inr ⟨hr, by rw [← withIndent_placed]; exact h⟩
    · rw [if_neg hr] at h
      exact Or.inl ⟨hr, h⟩
  · rintro ⟨seq, M1, it, M2, run, M3, h1, h2, g1, g2, h⟩
    refine ⟨seq, M1, h1, ?_⟩
    rw [Comp.bind_ok h2, Comp.bind_eq_ok]
    refine ⟨_, M3, (forLoop_run _ _ _ _ _ _ _ _ _).2 ⟨run, g1, g2, rfl⟩, ?_⟩
    rw [hres]
    rcases h with ⟨hr, h⟩ | ⟨hr, h⟩
    · rw [if_neg hr]; exact h
    · rw [if_pos hr, ← withIndent_placed] at *; exact h

/-- The elements are those of the sequence, in order, if iterators work and the body does not touch the
iterator of this loop. -/
theorem C51_elements {items : Val P → Option (List (Val P))}
    {At : Mem P W → Val P → List (Val P) → Prop} (law : IterLaw E.ops items At)
    (bind : Val P → Comp P X W Unit) (body : Comp P X W (List Ref)) (it : Val P)
    (hbind : ∀ v M M' ws, Gives (bind v) M () M' → At M.mem it ws → At M'.mem it ws)
    (hbody : ∀ M ns M' ws, Gives body M ns M' → At M.mem it ws → At M'.mem it ws)
    (M M' : Machine P W) (run : List (Val P × List Ref)) (vs : List (Val P))
    (hat : At M.mem it vs) (h : ForRun (runPy E (E.ops.next it)) bind body M run M') :
    run.map Prod.fst = vs := by
  induction h generalizing vs with
  | @stop M M' h1 =>
    cases vs with
    | nil => rfl
    | cons v vs =>
      obtain ⟨m', g1, _, _⟩ := law.next_item it v vs M.mem hat
      unfold Gives at h1
      rw [runPy_ret E _ M g1] at h1
      cases h1
  | @step M M1 M2 M3 M' v ns rest h1 h2 h3 h4 ih =>
    cases vs with
    | nil =>
      obtain ⟨m', g1, _⟩ := law.next_end it M.mem hat
      unfold Gives at h1
      rw [runPy_ret E _ M g1] at h1
      cases h1
    | cons w vs =>
      obtain ⟨m', g1, g2, _⟩ := law.next_item it w vs M.mem hat
      unfold Gives at h1
      rw [runPy_ret E _ M g1] at h1
      cases h1
      simp only [List.map_cons]
      rw [ih vs (hbody _ _ _ _ h3 (hbind _ _ _ _ h2 g2))]

/-- After the loop, a slot that the assignment of an element determines, and that neither the body nor
the iterator changes, holds what the last element gave it. -/
theorem C51_last_value (next : Comp P X W (Option (Val P))) (bind : Val P → Comp P X W Unit)
    (body : Comp P X W (List Ref)) (σ : StateId) (sl : Slot) (val : Val P → Option (Val P))
    (hnext : ∀ M o M', Gives next M o M' → (M'.states σ).values sl = (M.states σ).values sl)
    (hbind : ∀ v M M', Gives (bind v) M () M' → (M'.states σ).values sl = val v)
    (hbody : ∀ M ns M', Gives body M ns M' → (M'.states σ).values sl = (M.states σ).values sl)
    (M M' : Machine P W) (run : List (Val P × List Ref)) (v : Val P) (ns : List Ref)
    (h : ForRun next bind body M (run ++ [(v, ns)]) M') : (M'.states σ).values sl = val v := by
  have aux : ∀ (l : List (Val P × List Ref)) (M M' : Machine P W), ForRun next bind body M l M' →
      ∀ r v ns, l = r ++ [(v, ns)] → (M'.states σ).values sl = val v := by
    intro l M M' h
    clear * - h hnext hbind hbody
    induction h with
    | stop _ => intro r v ns hl; simp at hl
    | @step M M1 M2 M3 M' v ns rest h1 h2 h3 h4 ih =>
      intro r w ns' hl
      cases r with
      | nil =>
        simp only [List.nil_append, List.cons.injEq, Prod.mk.injEq] at hl
        obtain ⟨⟨rfl, rfl⟩, rfl⟩ := hl
        cases h4 with
        | stop h5 => rw [hnext _ _ _ h5, hbody _ _ _ h3, hbind _ _ _ h2]
      | cons a r =>
        simp only [List.cons_append, List.cons.injEq] at hl
        exact ih r w ns' hl.2
  exact aux _ M M' h run v ns rfl

/-- For a block without a body but with an `else` clause, `self.body` is the clause itself, and its
content is output once per element of a non-empty sequence. -/
theorem C51_not_in_general (σ : StateId) (t : Target) (e : Expr) (eb : Stmt P) (M M' : Machine P W)
    (out : Option (List Ref)) :
    Gives (transl E σ (.forBlock t e [.elseClause (some eb)])) M out M' ↔
    Gives (transl E σ (.forBlock t e [eb, .elseClause (some eb)])) M out M' := by
  unfold Gives
  simp only [transl, translEach_eq, List.map_cons, List.map_nil, List.head?_cons, optBranch]
  have hl : lastElse [.elseClause (some eb)] [nodesBy E σ (.elseClause (some eb))] =
      lastElse [eb, .elseClause (some eb)] [nodesBy E σ eb, nodesBy E σ (.elseClause (some eb))] := by
    simp [lastElse, Stmt.isElse]
  rw [hl]
  have hn : nodesBy E σ (.elseClause (some eb)) = nodesBy E σ eb := by
    simp only [nodesBy, transl, translOpt_some, requiredBranch, Comp.bind_assoc]
    rfl
  rw [hn]

-- for x in [7, 8]: | ..
example : let r := (transl Toy.env 0 (.forBlock (.many [.var (s!!"x") false none (some 1)]) (Toy.v 0)
      [.line (.markup [Toy.v 1])]) (Toy.machine [.py (.seq [.num 7, .num 8])]));
    Toy.texts r = some [.text (s!!"7"), .text (s!!"8")] ∧
    (r.2.states 0).values 1 = some (Toy.num 8) := ⟨rfl, rfl⟩
-- for x in [7, 8] / else | none: the clause is output twice
example : Toy.texts (transl Toy.env 0 (.forBlock (.many [.var (s!!"x") false none (some 1)]) (Toy.v 0)
      [.elseClause (some (Toy.say (s!!"none")))]) (Toy.machine [.py (.seq [.num 7, .num 8])])) =
    some [.text (s!!"none"), .text (s!!"none")] := rfl

/-! ### C52 while -/

/-- A `while` block: test and body alternate until the test is false; the output is the concatenation
of the bodies' outputs. -/
theorem C52_while (σ : StateId) (t : Expr) (b : Stmt P) (M M' : Machine P W)
    (out : Option (List Ref)) :
    Gives (transl E σ (.whileBlock t (some b) none)) M out M' ↔
    ∃ run M1, WhileRun (eval E σ t >>= truthOf E) (do return nodesOf (← transl E σ b)) M run M1 ∧
      run.length < E.fuel ∧ Gives (placed (X := X) σ (return some run.flatten)) M1 out M' := by
  unfold Gives
  simp only [transl, translOpt_some, translOpt_none, optBranch]
  rw [Comp.bind_eq_ok]
  have hres : ∀ run : List (List Ref),
      loopResult ([] ++ run.flatten, run.isEmpty && true) (none : Option (Comp P X W (List Ref))) =
        pure run.flatten := by
    intro run
    cases run <;> rfl
  constructor
  · rintro ⟨r, M1, h1, h2⟩
    rw [whileLoop_run] at h1
    obtain ⟨run, g1, g2, g3⟩ := h1
    subst g3
    rw [hres] at h2
    exact ⟨run, M1, g1, g2, h2⟩
  · rintro ⟨run, M1, g1, g2, h2⟩
    refine ⟨_, M1, (whileLoop_run _ _ _ _ _ _ _ _).2 ⟨run, g1, g2, rfl⟩, ?_⟩
    rw [hres]
    exact h2

/-- With an `else` clause, which is used if the first test is false already. -/
theorem C52_while_else (σ : StateId) (t : Expr) (b eb : Stmt P) (M M' : Machine P W)
    (out : Option (List Ref)) :
    Gives (transl E σ (.whileBlock t (some b) (some (.elseClause (some eb))))) M out M' ↔
    ∃ run M1, WhileRun (eval E σ t >>= truthOf E) (do return nodesOf (← transl E σ b)) M run M1 ∧
      run.length < E.fuel ∧
      ((run ≠ [] ∧ Gives (placed (X := X) σ (return some run.flatten)) M1 out M') ∨
       (run = [] ∧ Gives (placed σ (transl E σ eb)) M1 out M')) := by
  unfold Gives
  simp only [transl, translOpt_some, optBranch]
  rw [Comp.bind_eq_ok]
  have hn : nodesBy E σ (.elseClause (some eb)) = nodesBy E σ eb := by
    simp only [nodesBy, transl, translOpt_some, requiredBranch, Comp.bind_assoc]
    rfl
  rw [hn]
  have hres : ∀ run : List (List Ref),
      loopResult ([] ++ run.flatten, run.isEmpty && true) (some (nodesBy E σ eb)) =
        if run = [] then nodesBy E σ eb else pure run.flatten := by
    intro run
    cases run <;> rfl
  constructor
  · rintro ⟨r, M1, h1, h2⟩
    rw [whileLoop_run] at h1
    obtain ⟨run, g1, g2, g3⟩ := h1
    subst g3
    rw [hres] at h2
    refine ⟨run, M1, g1, g2, ?_⟩
    by_cases hr : run = []
    · rw [if_pos hr, withIndent_placed] at h2
      exact Or.inr ⟨hr, h2⟩
    · rw [if_neg hr] at h2
      exact Or.inl ⟨hr, h2⟩
  · rintro ⟨run, M1, g1, g2, h⟩
    refine ⟨_, M1, (whileLoop_run _ _ _ _ _ _ _ _).2 ⟨run, g1, g2, rfl⟩, ?_⟩
    rw [hres]
    rcases h with ⟨hr, h⟩ | ⟨hr, h⟩
    · rw [if_neg hr]; exact h
    · rw [if_pos hr, withIndent_placed]; exact h

/-- A complete run ends with a false test. -/
theorem C52_test_false (test : Comp P X W Bool) (body : Comp P X W (List Ref))
    (M M' : Machine P W) (run : List (List Ref)) (h : WhileRun test body M run M') :
    ∃ M1, Gives test M1 false M' := by
  induction h with
  | stop h => exact ⟨_, h⟩
  | step _ _ _ ih => exact ih

-- while x: | .., x = x - 1
example : let r := (transl Toy.env 0 (.whileBlock (Toy.v 0) (some (.body [.line (.markup [Toy.v 0]),
      .assign (.many [.var (s!!"x") false none (some 0)]) none
        (.chain false (Toy.v 0) [['-']] [Toy.v 1])])) none) (Toy.machine [Toy.num 3, Toy.num 1]));
    Toy.texts r = some [.text (s!!"3"), .text (s!!"2"), .text (s!!"1")] ∧
    (r.2.states 0).values 0 = some (Toy.num 0) := ⟨rfl, rfl⟩

/-! ### C53 try -/

/-- The first branch that does not raise is the output; the branches before it had their effects, those
after it are not touched. -/
theorem C53_first_success (σ : StateId) (pre post : List (Stmt P)) (b : Stmt P)
    (M M1 M2 : Machine P W) (o : Option (List Ref))
    (hpre : AllFail (pre.map (transl E σ)) M M1) (hb : Gives (transl E σ b) M1 o M2) :
    transl E σ (.tryBlock (pre ++ b :: post)) M = placed σ (return o) M2 := by
  have hf : AllFail (pre.map (nodesBy E σ)) M M1 := by
    clear hb
    induction pre generalizing M with
    | nil => cases hpre; exact .nil _
    | cons s pre ih =>
      cases hpre with
      | cons h1 h2 h3 => exact .cons (Comp.bind_raise h1) h2 (ih _ h3)
  simp only [transl, translEach_eq, List.map_append, List.map_cons]
  rw [Comp.bind_run, tryLoop_skip _ _ M M1 hf]
  have : nodesBy E σ b M1 = (.ok (nodesOf o), M2) := by
    unfold nodesBy; rw [Comp.bind_ok hb]; rfl
  simp only [tryLoop, Comp.tryExcept, this, Comp.handle, Comp.next]
  rfl

/-- If all branches raise ordinary exceptions then the output is empty. -/
theorem C53_all_fail (σ : StateId) (bs : List (Stmt P)) (M M1 : Machine P W)
    (h : AllFail (bs.map (transl E σ)) M M1) :
    transl E σ (.tryBlock bs) M = (.ok (some []), M1) := by
  have hf : AllFail (bs.map (nodesBy E σ)) M M1 := by
    induction bs generalizing M with
    | nil => cases h; exact .nil _
    | cons s pre ih =>
      cases h with
      | cons h1 h2 h3 => exact .cons (Comp.bind_raise h1) h2 (ih _ h3)
  simp only [transl, translEach_eq]
  have := tryLoop_skip (bs.map (nodesBy E σ)) [] M M1 hf
  rw [List.append_nil] at this
  rw [Comp.bind_run, this]
  rfl

/-- Other exceptions (`KeyboardInterrupt` ..) end the block. -/
theorem C53_base_exception (σ : StateId) (pre post : List (Stmt P)) (b : Stmt P)
    (M M1 M2 : Machine P W) (e : Exn X)
    (hpre : AllFail (pre.map (transl E σ)) M M1) (hb : Raises (transl E σ b) M1 e M2)
    (he : e.ordinary = false) :
    transl E σ (.tryBlock (pre ++ b :: post)) M = (.raise e, M2) := by
  have hf : AllFail (pre.map (nodesBy E σ)) M M1 := by
    clear hb
    induction pre generalizing M with
    | nil => cases hpre; exact .nil _
    | cons s pre ih =>
      cases hpre with
      | cons h1 h2 h3 => exact .cons (Comp.bind_raise h1) h2 (ih _ h3)
  simp only [transl, translEach_eq, List.map_append, List.map_cons]
  rw [Comp.bind_run, tryLoop_skip _ _ M M1 hf]
  have : nodesBy E σ b M1 = (.raise e, M2) := Comp.bind_raise hb
  simp only [tryLoop, Comp.tryExcept, this, Comp.handle, he, Bool.false_eq_true, if_false]
  rfl

/-- A `try` block raises an ordinary exception only if placing the output of the successful branch at
the current indentation fails; this can only be an `AssertionError`. Missing: a proof that this step
does not fail for the output of a branch; it may fail if user code manipulates nodes, see
`C53_not_in_general`. -/
theorem C53_no_exception_partial (σ : StateId) (bs : List (Stmt P)) (M M' : Machine P W) (e : Exn X)
    (h : Raises (transl E σ (.tryBlock bs)) M e M') (he : e.ordinary = true) :
    e = .assertion ∧ ∃ ns M1, Raises (setIndent (M1.states σ).indentation ns) M1 e M' := by
  unfold Raises at h
  simp only [transl, translEach_eq] at h
  rw [Comp.bind_eq_raise] at h
  rcases h with h | ⟨ns, M1, _, h⟩
  · exact absurd he (by rw [tryLoop_raise _ _ _ _ h]; simp)
  · simp only [withIndent] at h
    rw [Comp.bind_eq_raise] at h
    rcases h with h | ⟨ind, M2, h2, h⟩
    · cases h
    · cases h2
      rw [Comp.bind_eq_raise] at h
      rcases h with h | ⟨_, M2, _, h⟩
      · exact ⟨setIndent_raise _ _ _ _ _ h, ns, M1, h⟩
      · cases h

/-- Operations of the miniature Python, except that calling a function changes the indentation of node
0 to a single newline. -/
def Toy.envBad : Env Toy.Obj Nat Toy.World :=
  { Toy.env with ops := { Toy.ops with
      call := fun _ _ _ m => .ret .none { m with nodes := fun r =>
        if r = 0 then { m.nodes r with indent := some ['\n'] } else m.nodes r } } }

/-- In a block at the indentation of four spaces, a branch outputs a tagged text and then calls a function
that meddles with the text node. The branch succeeds, but the `try` block raises `AssertionError`. -/
theorem C53_not_in_general :
    ∃ (σ : StateId) (b : Stmt Toy.Obj) (M M' : Toy.M), Raises (transl Toy.envBad σ (.tryBlock [b])) M
      .assertion M' ∧ ∃ o M1, Gives (transl Toy.envBad σ b) M o M1 := by
  let b : Stmt Toy.Obj := .body [.struct [.tag (s!!"p") (some 0) [] []] (Toy.say (s!!"A")),
    .exprBlock (Toy.f 1)]
  let M : Toy.M := (Toy.machine [.py (.tag 0), .py (.fn 5)]).updState 0
    (fun s => { s with indentation := (s!!"\n    ") })
  exact ⟨0, b, M, _, rfl, _, _, rfl⟩

-- a failing branch, then a good one
example : Toy.texts (transl Toy.env 0 (.tryBlock [.body [Toy.say (s!!"A"), .exprBlock (Toy.f 0)],
      Toy.say (s!!"B"), Toy.say (s!!"C")]) (Toy.machine [.py (.fn 1)])) = some [.text (s!!"B")] := rfl

end
end Verif
