import Verif.Lemmas.Eval
import Verif.Spec.Toy

/-! Properties of expressions: C43-C48. Examples run in the miniature Python of `Spec/Toy.lean`. -/

namespace Verif
open Py

section
variable {P X W : Type} (E : Env P X W)

/-! ### C43 Logical operators -/

/-- `x1 and x2 and ..` has the outcome of Python's operator, for operands of any behaviour, provided
that testing a value twice in a row is the same as testing it once. -/
theorem C43_and (hs : StableTest (truthOf E)) (σ : StateId) (h : Expr) (es : List Expr)
    (M : Machine P W) (r : Res X (Val P) × Machine P W) (ht : r.1 ≠ .timeout) :
    eval E σ (.andTest h es) M = r ↔
      Shortcut (truthOf E) false ((h :: es).map (eval E σ)) M r := by
  have he : eval E σ (.andTest h es) = shortcut (truthOf E) false (eval E σ h) (es.map (eval E σ)) := by
    rw [← evalAnd_eq E hs]; rfl
  rw [he]
  constructor
  · rintro rfl
    exact shortcut_sound _ _ _ _ _ ht
  · exact shortcut_complete _ _ _ _ _ _

/-- The same for `x1 or x2 or ..`. -/
theorem C43_or (hs : StableTest (truthOf E)) (σ : StateId) (h : Expr) (es : List Expr)
    (M : Machine P W) (r : Res X (Val P) × Machine P W) (ht : r.1 ≠ .timeout) :
    eval E σ (.orTest h es) M = r ↔
      Shortcut (truthOf E) true ((h :: es).map (eval E σ)) M r := by
  have he : eval E σ (.orTest h es) = shortcut (truthOf E) true (eval E σ h) (es.map (eval E σ)) := by
    rw [← evalOr_eq E hs]; rfl
  rw [he]
  constructor
  · rintro rfl
    exact shortcut_sound _ _ _ _ _ ht
  · exact shortcut_complete _ _ _ _ _ _

/-- Operands after the deciding one do not matter, nor does their number. -/
theorem C43_later_operands_not_evaluated (hs : StableTest (truthOf E)) (σ : StateId) (h : Expr)
    (pre post post' : List Expr) (e : Expr) (hp : post ≠ []) (hp' : post' ≠ [])
    (M M1 M2 M3 : Machine P W) (v : Val P)
    (ha : AllTested (truthOf E) true ((h :: pre).map (eval E σ)) M M1)
    (hv : Gives (eval E σ e) M1 v M2) (ht : Gives (truthOf E v) M2 false M3) :
    eval E σ (.andTest h (pre ++ e :: post)) M = (.ok v, M3) ∧
      eval E σ (.andTest h (pre ++ e :: post')) M = (.ok v, M3) := by
  constructor
  · rw [C43_and E hs _ _ _ _ _ (by simp)]
    have := Shortcut.decides (stop := false) (post := post.map (eval E σ)) ha hv (by simpa using hp) ht
    simpa using this
  · rw [C43_and E hs _ _ _ _ _ (by simp)]
    have := Shortcut.decides (stop := false) (post := post'.map (eval E σ)) ha hv (by simpa using hp') ht
    simpa using this

/-- The proviso cannot be dropped: the code tests a value twice, and with an object whose `__bool__`
changes its answer, the second operand is skipped although the first test was positive. -/
theorem C43_double_test_witness :
    ∃ (σ : StateId) (h : Expr) (es : List Expr) (M : Toy.M) (r : _),
      eval Toy.env σ (.andTest h es) M = r ∧ r.1 ≠ .timeout ∧
      ¬ Shortcut (truthOf Toy.env) false ((h :: es).map (eval Toy.env σ)) M r := by
  refine ⟨0, Toy.v 0, [Toy.v 1], Toy.machine [.py .flip, Toy.num 5], _, rfl, ?_, ?_⟩
  · intro h; cases h
  · intro h
    have := shortcut_complete _ _ _ _ _ _ h
    have h1 := congrArg Prod.fst this
    change Res.ok (Toy.num 5) = Res.ok (Val.py .flip) at h1
    cases h1

-- `x and f() and g()`, where `f()` is 0: `g` is not called
example : Toy.run (eval Toy.env 0 (.andTest (Toy.v 0)
      [.chain false (Toy.f 1) [['-']] [Toy.f 1], Toy.f 2]))
    (Toy.machine [Toy.num 7, .py (.fn 4), .py (.fn 5)]) = (.ok (Toy.num 0), [4, 4]) := rfl
-- `0 or f()`
example : Toy.run (eval Toy.env 0 (.orTest (Toy.v 0) [Toy.f 1]))
    (Toy.machine [Toy.num 0, .py (.fn 4)]) = (.ok (Toy.num 4), [4]) := rfl

/-! ### C44 Conditional expression -/

/-- The test goes first; if it is true then `x` follows and nothing else. -/
theorem C44_true (σ : StateId) (x t : Expr) (y : Option Expr) (M M1 M2 : Machine P W) (tv : Val P)
    (h1 : Gives (eval E σ t) M tv M1) (h2 : Gives (truthOf E tv) M1 true M2) :
    eval E σ (.ifElse x t y) M = eval E σ x M2 := by
  cases y <;>
  · simp only [eval]
    rw [Comp.bind_ok h1, Comp.bind_ok h2]
    rfl

/-- If it is false then `y` follows and nothing else; `''` if there is no `y`. -/
theorem C44_false (σ : StateId) (x t : Expr) (M M1 M2 : Machine P W) (tv : Val P)
    (h1 : Gives (eval E σ t) M tv M1) (h2 : Gives (truthOf E tv) M1 false M2) :
    (∀ y, eval E σ (.ifElse x t (some y)) M = eval E σ y M2) ∧
      eval E σ (.ifElse x t none) M = (.ok (.str []), M2) := by
  constructor
  · intro y
    simp only [eval]
    rw [Comp.bind_ok h1, Comp.bind_ok h2]
    rfl
  · simp only [eval]
    rw [Comp.bind_ok h1, Comp.bind_ok h2]
    rfl

/-- If the test fails then neither of the branches is evaluated. -/
theorem C44_test_fails (σ : StateId) (x t : Expr) (y : Option Expr) (M M' : Machine P W) (e : Exn X)
    (h : Raises (eval E σ t >>= truthOf E) M e M') :
    eval E σ (.ifElse x t y) M = (.raise e, M') := by
  cases y <;>
  · simp only [eval]
    rw [← Comp.bind_assoc]
    exact Comp.bind_raise h

-- `f() if 0 else g()`
example : Toy.run (eval Toy.env 0 (.ifElse (Toy.f 1) (Toy.v 0) (some (Toy.f 2))))
    (Toy.machine [Toy.num 0, .py (.fn 4), .py (.fn 5)]) = (.ok (Toy.num 5), [5]) := rfl
example : Toy.run (eval Toy.env 0 (.ifElse (Toy.f 1) (Toy.v 0) none))
    (Toy.machine [Toy.num 0, .py (.fn 4)]) = (.ok (.str []), []) := rfl

/-! ### C45, C46 Qualifiers -/

/-- The expressions that may carry a qualifier, and what is qualified. -/
inductive Qualifiable (E : Env P X W) (σ : StateId) (q : Qual) : Expr → Comp P X W (Val P) → Prop
  | root (e : Expr) : Qualifiable E σ q (.root (some q) e) (eval E σ e)
  | factor (atom : Expr) (tail : List Tail) :
      Qualifiable E σ q (.factor atom tail (some q)) (eval E σ atom >>= applyTails E σ tail)

/-- `X?` in terms of the outcome of `X` (`inner`). -/
theorem C45_optional (σ : StateId) (x : Expr) (inner : Comp P X W (Val P))
    (hx : Qualifiable E σ .opt x inner) (M : Machine P W) :
    (∀ v M1 M2, Gives inner M v M1 → Gives (truthOf E v) M1 true M2 → eval E σ x M = (.ok v, M2)) ∧
    (∀ v M1 M2, Gives inner M v M1 → Gives (truthOf E v) M1 false M2 →
      eval E σ x M = (.ok (.str []), M2)) ∧
    (∀ e M1, Raises inner M e M1 → e.ordinary = true → eval E σ x M = (.ok (.str []), M1)) ∧
    (∀ e M1, Raises inner M e M1 → e.ordinary = false → eval E σ x M = (.raise e, M1)) := by
  have hq : eval E σ x = qualified E (some .opt) inner := by cases hx <;> rfl
  rw [hq]
  refine ⟨?_, ?_, ?_, ?_⟩
  · intro v M1 M2 h1 h2
    unfold Gives at h1
    simp only [qualified, h1, qualStep, qualCheck]
    rw [Comp.bind_ok h2]
    rfl
  · intro v M1 M2 h1 h2
    unfold Gives at h1
    simp only [qualified, h1, qualStep, qualCheck]
    rw [Comp.bind_ok h2]
    rfl
  · intro e M1 h1 ho
    unfold Raises at h1
    simp [qualified, h1, qualStep, ho]
  · intro e M1 h1 ho
    unfold Raises at h1
    simp [qualified, h1, qualStep, ho]

/-- If truth tests do not raise then `X?` never raises an ordinary exception. -/
theorem C45_no_exception (ht : ∀ (v : Val P) (M M' : Machine P W) (e : Exn X), truthOf E v M ≠ (.raise e, M'))
    (σ : StateId) (x : Expr) (inner : Comp P X W (Val P))
    (hx : Qualifiable E σ .opt x inner) (M M' : Machine P W) (e : Exn X)
    (h : eval E σ x M = (.raise e, M')) : e.ordinary = false := by
  obtain ⟨h1, h2, h3, h4⟩ := C45_optional E σ x inner hx M
  have hq : eval E σ x = qualified E (some .opt) inner := by cases hx <;> rfl
  rcases hi : inner M with ⟨r, M1⟩
  cases r with
  | ok v =>
    rcases hb : truthOf E v M1 with ⟨r2, M2⟩
    cases r2 with
    | ok b =>
      cases b with
      | true => rw [h1 v M1 M2 hi hb] at h; cases h
      | false => rw [h2 v M1 M2 hi hb] at h; cases h
    | raise e2 => exact absurd hb (ht v M1 M2 e2)
    | timeout =>
      rw [hq] at h
      simp only [qualified, hi, qualStep, qualCheck] at h
      rw [Comp.bind_timeout hb] at h
      cases h
  | raise e2 =>
    cases ho : e2.ordinary with
    | true => rw [h3 e2 M1 hi ho] at h; cases h
    | false => rw [h4 e2 M1 hi ho] at h; cases h; exact ho
  | timeout =>
    rw [hq] at h
    simp only [qualified, hi, qualStep] at h
    cases h

/-- The truth test is outside of the `try` statement: if `X` gives an object whose truth test raises
then `X?` raises, too. (The same happens without any qualifier.) -/
theorem C45_truth_test_escapes (σ : StateId) (q : Option Qual) (e : Expr) (M M1 M2 : Machine P W)
    (v : Val P) (x : Exn X) (h1 : Gives (eval E σ e) M v M1) (h2 : Raises (truthOf E v) M1 x M2) :
    eval E σ (.root q e) M = (.raise x, M2) := by
  unfold Gives at h1
  simp only [eval, qualified, h1, qualStep, qualCheck]
  exact Comp.bind_raise h2

-- `f()?` with a failing `f`, with `KeyboardInterrupt`, and `0?`
example : Toy.run (eval Toy.env 0 (.root (some .opt) (Toy.f 0))) (Toy.machine [.py (.fn 1)]) =
    (.ok (.str []), []) := rfl
example : Toy.run (eval Toy.env 0 (.root (some .opt) (Toy.f 0))) (Toy.machine [.py (.fn 0)]) =
    (.raise (.base 0), []) := rfl
example : Toy.run (eval Toy.env 0 (.root (some .opt) (Toy.v 0))) (Toy.machine [Toy.num 0]) =
    (.ok (.str []), []) := rfl
example : Toy.run (eval Toy.env 0 (.factor (Toy.v 0) [] (some .opt))) (Toy.machine [Toy.num 3]) =
    (.ok (Toy.num 3), []) := rfl
-- an object whose truth test raises cannot even be passed through `{..}`
example : Toy.run (eval Toy.env 0 (.root none (Toy.v 0))) (Toy.machine [.py .bad]) =
    (.raise (.user 0), []) := rfl

/-- `X!` in terms of the outcome of `X`. The message contains `repr(X)`, which must not raise. -/
theorem C46_obligatory (σ : StateId) (x : Expr) (inner : Comp P X W (Val P))
    (hx : Qualifiable E σ .obl x inner) (M : Machine P W) :
    (∀ v M1 M2, Gives inner M v M1 → Gives (truthOf E v) M1 true M2 → eval E σ x M = (.ok v, M2)) ∧
    (∀ v M1 M2 M3 s, Gives inner M v M1 → Gives (truthOf E v) M1 false M2 →
      Gives (runPy E (E.ops.repr v)) M2 s M3 → eval E σ x M = (.raise .falseValue, M3)) ∧
    (∀ e M1, Raises inner M e M1 → eval E σ x M = (.raise e, M1)) := by
  have hq : eval E σ x = qualified E (some .obl) inner := by cases hx <;> rfl
  rw [hq]
  refine ⟨?_, ?_, ?_⟩
  · intro v M1 M2 h1 h2
    unfold Gives at h1
    simp only [qualified, h1, qualStep, qualCheck]
    rw [Comp.bind_ok h2]
    rfl
  · intro v M1 M2 M3 s h1 h2 h3
    unfold Gives at h1
    simp only [qualified, h1, qualStep, qualCheck]
    rw [Comp.bind_ok h2]
    change (runPy E (E.ops.repr v) >>= fun _ => Comp.raise .falseValue) M2 = _
    rw [Comp.bind_ok h3]
    rfl
  · intro e M1 h1
    unfold Raises at h1
    simp [qualified, h1, qualStep]

/-- `X!` never gives a false value. -/
theorem C46_result_true (σ : StateId) (x : Expr) (inner : Comp P X W (Val P))
    (hx : Qualifiable E σ .obl x inner) (M M' : Machine P W) (v : Val P)
    (h : eval E σ x M = (.ok v, M')) :
    ∃ M1, Gives inner M v M1 ∧ Gives (truthOf E v) M1 true M' := by
  have hq : eval E σ x = qualified E (some .obl) inner := by cases hx <;> rfl
  rw [hq] at h
  unfold qualified at h
  rcases hi : inner M with ⟨r, M1⟩
  rw [hi] at h
  cases r with
  | raise e =>
    simp only [qualStep, reduceCtorEq, Option.some.injEq, and_false, if_false, Prod.mk.injEq,
      false_and] at h
  | timeout => cases h
  | ok w =>
    simp only [qualStep, qualCheck] at h
    rw [Comp.bind_eq_ok] at h
    obtain ⟨b, M2, hb, h⟩ := h
    cases b with
    | true =>
      cases h
      exact ⟨M1, hi, hb⟩
    | false =>
      change (runPy E (E.ops.repr w) >>= fun _ => Comp.raise .falseValue) M2 = _ at h
      rw [Comp.bind_eq_ok] at h
      obtain ⟨_, _, _, h⟩ := h
      cases h

/-- `FalseValueEx` comes from a false value, or from `X` itself, or from the user's `__bool__` or
`__repr__`. -/
theorem C46_false_value_only (σ : StateId) (x : Expr) (inner : Comp P X W (Val P))
    (hx : Qualifiable E σ .obl x inner) (M M' : Machine P W)
    (hu : ∀ v M M', ¬ Raises (truthOf E v) M .falseValue M' ∧
      ¬ Raises (runPy E (E.ops.repr v)) M .falseValue M')
    (h : Raises (eval E σ x) M .falseValue M') :
    Raises inner M .falseValue M' ∨
      ∃ v M1 M2, Gives inner M v M1 ∧ Gives (truthOf E v) M1 false M2 := by
  have hq : eval E σ x = qualified E (some .obl) inner := by cases hx <;> rfl
  unfold Raises at h
  rw [hq] at h
  unfold qualified at h
  rcases hi : inner M with ⟨r, M1⟩
  rw [hi] at h
  cases r with
  | raise e =>
    simp only [qualStep, reduceCtorEq, Option.some.injEq, and_false, if_false] at h
    exact Or.inl (by unfold Raises; rw [hi]; exact h)
  | timeout => cases h
  | ok w =>
    simp only [qualStep, qualCheck] at h
    rw [Comp.bind_eq_raise] at h
    rcases h with h | ⟨b, M2, hb, h⟩
    · exact absurd h (hu _ _ _).1
    · cases b with
      | true => cases h
      | false => exact Or.inr ⟨w, M1, M2, hi, hb⟩

example : Toy.run (eval Toy.env 0 (.root (some .obl) (Toy.v 0))) (Toy.machine [Toy.num 0]) =
    (.raise .falseValue, []) := rfl
example : Toy.run (eval Toy.env 0 (.root (some .obl) (Toy.f 0))) (Toy.machine [.py (.fn 1)]) =
    (.raise (.user 1), []) := rfl

/-! ### C47 Pipelines -/

/-- A filter of a pipeline, grammar.py:232: a function and a non-empty list of further arguments in
parentheses, or none. -/
inductive Filter where
  | bare (f : Expr)
  | applied (f : Expr) (names : List (Option Str)) (args : List Expr) (ne : args ≠ [])

/-- Its expression tree. -/
def Filter.expr : Filter → Expr
  | .bare f => f
  | .applied f names args _ => .factor f [.partialCall names args] none

/-- Application of a filter to the value that comes from the left. -/
def Filter.apply (σ : StateId) (x : Val P) : Filter → Comp P X W (Val P)
  | .bare f => do
    let fv ← eval E σ f
    callVal E fv [x] []
  | .applied f names args _ => do
    let fv ← eval E σ f
    let vs ← inOrder (args.map (eval E σ))
    callVal E fv (x :: positional names vs) (Dict.update [] (keywords names vs))

/-- Each filter is called with the value so far as the first positional argument, followed by the
listed arguments. -/
theorem C47_filter (σ : StateId) (x : Expr) (fs : List Filter) (g : Filter) :
    eval E σ (.pipeline x ((fs ++ [g]).map Filter.expr)) =
      (eval E σ (.pipeline x (fs.map Filter.expr)) >>= fun v => g.apply E σ v) := by
  have key : ∀ v, (eval E σ g.expr >>= fun f => callVal E f [v] []) = g.apply E σ v := by
    intro v
    cases g with
    | bare f => rfl
    | applied f names args ne =>
      simp only [Filter.expr, Filter.apply, eval]
      rw [← evalList_eq]
      have hq : ∀ c : Comp P X W (Val P), ∀ (k : Val P → Comp P X W (Val P)),
          (∀ M fv M1, c M = (.ok fv, M1) → ∃ a b d, fv = .part a b d) →
          (qualified E none c >>= k) = (c >>= k) := by
        intro c k hc
        funext M
        simp only [Comp.bind_run, qualified]
        rcases h : c M with ⟨r, M1⟩
        cases r with
        | ok fv =>
          obtain ⟨a, b, d, rfl⟩ := hc M fv M1 h
          rfl
        | raise e => simp [qualStep]
        | timeout => rfl
      rw [hq]
      · rw [Comp.bind_assoc]
        congr 1
        funext fv
        have hne : args.isEmpty = false := by cases args <;> simp_all
        simp only [applyTails, applyTail, hne, Bool.false_eq_true, if_false, Comp.bind_assoc]
        rfl
      · intro M fv M1 h
        have hne : args.isEmpty = false := by cases args <;> simp_all
        simp only [applyTails, applyTail, hne, Bool.false_eq_true, if_false, Comp.bind_assoc] at h
        rw [Comp.bind_eq_ok] at h
        obtain ⟨_, _, _, h⟩ := h
        rw [Comp.bind_eq_ok] at h
        obtain ⟨_, _, _, h⟩ := h
        cases h
        exact ⟨_, _, _, rfl⟩
  have app : ∀ (l : List Expr) (e : Expr) (c : Comp P X W (Val P)),
      (c >>= evalPipe E σ (l ++ [e])) =
        ((c >>= evalPipe E σ l) >>= fun v => eval E σ e >>= fun f => callVal E f [v] []) := by
    intro l
    induction l with
    | nil =>
      intro e c
      simp only [List.nil_append, evalPipe, Comp.bind_pure]
    | cons a l ih =>
      intro e c
      simp only [List.cons_append, evalPipe, Comp.bind_assoc]
      congr 1; funext v; congr 1; funext f
      have := ih e (callVal E f [v] [])
      simpa only [Comp.bind_assoc] using this
  simp only [List.map_append, List.map_cons, List.map_nil, eval]
  rw [app]
  congr 1
  funext v
  exact key v

/-- The empty pipeline is its head. -/
theorem C47_no_filter (σ : StateId) (x : Expr) : eval E σ (.pipeline x []) = eval E σ x := by
  simp only [eval, evalPipe]
  exact Comp.bind_pure _

/-- An expression whose evaluation has no effects, does not fail and does not depend on the machine,
apart from a condition `I` on it that the rest of the program maintains. -/
def Settled (σ : StateId) (I : Machine P W → Prop) (e : Expr) (v : Val P) : Prop :=
  ∀ M, I M → eval E σ e M = (.ok v, M)

theorem inOrder_settled (σ : StateId) (I : Machine P W → Prop) {es : List Expr} {vs : List (Val P)}
    (h : List.Forall₂ (Settled E σ I) es vs) (M : Machine P W) (hM : I M) :
    inOrder (es.map (eval E σ)) M = (.ok vs, M) := by
  induction h with
  | nil => rfl
  | cons h1 _ ih =>
    simp only [List.map_cons, inOrder]
    rw [Comp.bind_ok (h1 M hM), Comp.bind_ok ih]
    rfl

/-- `x : f(a..)` gives the same as `f(x, a..)`, where the function and the arguments are settled; `x`
is arbitrary (on the right, `x` is evaluated after `f`) but maintains `I`. By `C47_filter`, this applies
to each filter of a chain. -/
theorem C47_as_call (σ : StateId) (I : Machine P W → Prop) (x f : Expr) (names : List (Option Str))
    (args : List Expr) (ne : args ≠ []) (fv : Val P) (vs : List (Val P)) (M : Machine P W) (hM : I M)
    (hf : Settled E σ I f fv) (ha : List.Forall₂ (Settled E σ I) args vs)
    (hx : ∀ v M1, Gives (eval E σ x) M v M1 → I M1) :
    eval E σ (.pipeline x [.factor f [.partialCall names args] none]) M =
      (eval E σ f >>= applyTail E σ (.call (none :: names) (x :: args))) M := by
  have h1 := C47_filter E σ x [] (.applied f names args ne)
  simp only [List.nil_append, List.map_cons, List.map_nil, Filter.expr] at h1
  rw [h1, C47_no_filter]
  simp only [Filter.apply, applyTail]
  rw [Comp.bind_ok (hf M hM)]
  simp only [evalList_eq, List.map_cons, inOrder, Comp.bind_assoc]
  rcases hxv : eval E σ x M with ⟨r, M1⟩
  cases r with
  | raise e => rw [Comp.bind_raise hxv, Comp.bind_raise hxv]
  | timeout => rw [Comp.bind_timeout hxv, Comp.bind_timeout hxv]
  | ok v =>
    have hI := hx v M1 hxv
    have hi := inOrder_settled E σ I ha M1 hI
    rw [Comp.bind_ok hxv, Comp.bind_ok hxv, Comp.bind_ok (hf M1 hI), Comp.bind_ok hi, Comp.bind_ok hi]
    rfl

-- `x : f(a) : g` is `g(f(x, a))`: (100 * 7 + 1 + 4) * 100 + 5
example : Toy.run (eval Toy.env 0 (.pipeline (Toy.v 0)
      [(Filter.applied (Toy.v 1) [none] [Toy.v 3] (by simp)).expr, (Filter.bare (Toy.v 2)).expr]))
    (Toy.machine [Toy.num 7, .py (.fn 4), .py (.fn 5), Toy.num 1]) =
    (.ok (Toy.num 70505), [4, 5]) := rfl

/-! ### C48 Operator chains -/

/-- A chain of operators of equal priority: operands left to right, combined to the left. -/
theorem C48_chain (σ : StateId) (h : Expr) (ops : List Str) (es : List Expr)
    (hl : ops.length = es.length) :
    eval E σ (.chain false h ops es) =
      leftNested (binOp E) (eval E σ h) (ops.zip (es.map (eval E σ))) := by
  rw [← evalChain_eq E σ ops es hl]
  simp only [eval, Bool.false_eq_true, if_false, Comp.pure_bind]

/-- A leading minus applies to the first operand only. -/
theorem C48_minus (σ : StateId) (h : Expr) (ops : List Str) (es : List Expr)
    (hl : ops.length = es.length) :
    eval E σ (.chain true h ops es) =
      leftNested (binOp E) (eval E σ h >>= negate E) (ops.zip (es.map (eval E σ))) := by
  rw [← evalChain_eq E σ ops es hl]
  simp only [eval, if_true, Comp.bind_assoc]

/-- The same for the chains of a single operator, `&`, `^` and `|`. -/
theorem C48_bits (σ : StateId) (op : Str) (h : Expr) (es : List Expr) :
    eval E σ (.bits op h es) =
      leftNested (binOp E) (eval E σ h) (es.map (fun e => (op, eval E σ e))) := by
  rw [← evalBits_eq E σ op es]
  simp only [eval]

/-- `x1 op1 x2 .. opn xn` is `(x1 op1 x2 ..) opn xn`. -/
theorem C48_parentheses (σ : StateId) (neg : Bool) (h e : Expr) (ops : List Str) (op : Str)
    (es : List Expr) (hl : ops.length = es.length) :
    eval E σ (.chain neg h (ops ++ [op]) (es ++ [e])) =
      eval E σ (.chain false (.chain neg h ops es) [op] [e]) := by
  have hz : (ops ++ [op]).zip ((es ++ [e]).map (eval E σ)) =
      ops.zip (es.map (eval E σ)) ++ [(op, eval E σ e)] := by
    rw [List.map_append, List.zip_append (by simpa using hl)]
    rfl
  have hr := C48_chain E σ (.chain neg h ops es) [op] [e] rfl
  rw [hr]
  cases neg with
  | false =>
    rw [C48_chain E σ h _ _ (by simpa using hl), C48_chain E σ h _ _ hl, hz, leftNested_append]
    rfl
  | true =>
    rw [C48_minus E σ h _ _ (by simpa using hl), C48_minus E σ h _ _ hl, hz, leftNested_append]
    rfl

/-- If the first part of a chain raises then so does the whole, and no further operand is evaluated. -/
theorem C48_first_failure (σ : StateId) (h : Expr) (ops ops' : List Str) (es es' : List Expr)
    (hl : ops.length = es.length) (hl' : ops'.length = es'.length) (M M' : Machine P W) (x : Exn X)
    (hx : Raises (eval E σ (.chain false h ops es)) M x M') :
    Raises (eval E σ (.chain false h (ops ++ ops') (es ++ es'))) M x M' := by
  unfold Raises at *
  rw [C48_chain E σ h _ _ hl] at hx
  rw [C48_chain E σ h _ _ (by simp [hl, hl']), List.map_append,
    List.zip_append (by simpa using hl), leftNested_append]
  exact leftNested_raise _ _ _ hx

-- 9 - 3 - 2 + 1
example : Toy.run (eval Toy.env 0 (.chain false (Toy.v 0) [['-'], ['-'], ['+']]
      [Toy.v 1, Toy.v 2, Toy.v 3])) (Toy.machine [Toy.num 9, Toy.num 3, Toy.num 2, Toy.num 1]) =
    (.ok (Toy.num 5), []) := rfl
-- 3 - 9 - f() fails before `f` is called
example : Toy.run (eval Toy.env 0 (.chain false (Toy.v 1) [['-'], ['-']] [Toy.v 0, Toy.f 2]))
    (Toy.machine [Toy.num 9, Toy.num 3, .py (.fn 4)]) = (.raise (.user 3), []) := rfl

end
end Verif
