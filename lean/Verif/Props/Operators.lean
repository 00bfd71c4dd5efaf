import Verif.Lemmas.Eval
import Verif.Lemmas.Table
import Verif.Spec.Toy

/-! Properties of expressions, continued: C70-C74. -/

namespace Verif
open Py Spec

section
variable {P X W : Type} (E : Env P X W)

/-! ### C70 Concatenation and formatted strings -/

/-- The operands are evaluated in order; the text of each one, which must not be `None`, is taken
before the next one is evaluated. -/
inductive Pieces (text : Val P → Comp P X W Str) :
    List (Comp P X W (Val P)) → Machine P W → List Str → Machine P W → Prop
  | nil (M) : Pieces text [] M [] M
  | cons {c cs v s ss M M1 M2 M3} : Gives c M v M1 → (∀ (_ : v = .none), False) →
      Gives (text v) M1 s M2 → Pieces text cs M2 ss M3 → Pieces text (c :: cs) M (s :: ss) M3

theorem evalStrs_pieces (σ : StateId) (es : List Expr) (M M' : Machine P W) (s : Str) :
    evalStrs E σ es M = (.ok s, M') ↔
      ∃ ss, Pieces (strOf E) (es.map (eval E σ)) M ss M' ∧ s = ss.flatten := by
  induction es generalizing M s with
  | nil =>
    constructor
    · intro h
      simp only [evalStrs, pure, Comp.pure, Prod.mk.injEq, Res.ok.injEq] at h
      obtain ⟨rfl, rfl⟩ := h
      exact ⟨[], .nil _, rfl⟩
    · rintro ⟨ss, h, rfl⟩
      cases h
      rfl
  | cons e es ih =>
    simp only [evalStrs, List.map_cons, Comp.bind_eq_ok]
    constructor
    · rintro ⟨v, M1, h1, t, M2, h2, u, M3, h3, h⟩
      simp only [Comp.pure_run, Prod.mk.injEq, Res.ok.injEq] at h
      obtain ⟨rfl, rfl⟩ := h
      obtain ⟨ss, h4, rfl⟩ := (ih _ _).1 h3
      refine ⟨t :: ss, .cons h1 ?_ ?_ h4, rfl⟩
      · rintro rfl
        simp [STR, Comp.raise] at h2
      · cases v <;> first | exact h2 | simp [STR, Comp.raise] at h2
    · rintro ⟨ss, h, rfl⟩
      cases h with
      | @cons _ _ v s ss _ M1 M2 _ h1 hn h2 h3 =>
        have h4 := (ih M2 ss.flatten).2 ⟨ss, h3, rfl⟩
        have h5 : STR E v M1 = (.ok s, M2) := by
          cases v <;> first | exact h2 | exact (hn rfl).elim
        exact ⟨v, M1, h1, s, M2, h5, ss.flatten, M', h4, rfl⟩

/-- C70. A concatenation `e1 e2 ..` gives the texts of the operands, joined in the order of writing. -/
theorem C70_concat (σ : StateId) (es : List Expr) (M M' : Machine P W) (v : Val P) :
    Gives (eval E σ (.concat es)) M v M' ↔
      ∃ ss, Pieces (strOf E) (es.map (eval E σ)) M ss M' ∧ v = .str ss.flatten := by
  unfold Gives
  simp only [eval, Comp.bind_eq_ok]
  constructor
  · rintro ⟨s, M1, h1, h⟩
    simp only [Comp.pure_run, Prod.mk.injEq, Res.ok.injEq] at h
    obtain ⟨rfl, rfl⟩ := h
    obtain ⟨ss, h2, rfl⟩ := (evalStrs_pieces E σ es _ _ _).1 h1
    exact ⟨ss, h2, rfl⟩
  · rintro ⟨ss, h, rfl⟩
    exact ⟨_, M', (evalStrs_pieces E σ es _ _ _).2 ⟨ss, h, rfl⟩, rfl⟩

/-- C70. The same for formatted strings `$'..{e}..'`, whose parts are texts and expressions. -/
theorem C70_format (σ : StateId) (es : List Expr) :
    eval E σ (.format es) = eval E σ (.concat es) := by
  simp only [eval]

/-- C70. An operand that is `None` is an error, reported before the later operands are evaluated. -/
theorem C70_none (σ : StateId) (pre post : List Expr) (e : Expr) (M M1 M2 : Machine P W)
    (ss : List Str) (h : Pieces (strOf E) (pre.map (eval E σ)) M ss M1)
    (hn : Gives (eval E σ e) M1 .none M2) :
    Raises (eval E σ (.concat (pre ++ e :: post))) M .noneString M2 := by
  unfold Raises
  have key : ∀ (pre : List Expr) (M : Machine P W) (ss : List Str),
      Pieces (strOf E) (pre.map (eval E σ)) M ss M1 →
      evalStrs E σ (pre ++ e :: post) M = (.raise .noneString, M2) := by
    intro pre
    induction pre with
    | nil =>
      intro M ss h
      cases h
      simp only [List.nil_append, evalStrs]
      rw [Comp.bind_ok hn]; rfl
    | cons d pre ih =>
      intro M ss h
      cases h with
      | @cons _ _ v s ss _ M3 M4 _ h1 hv h2 h3 =>
        have h5 : STR E v M3 = (.ok s, M4) := by
          cases v <;> first | exact h2 | exact (hv rfl).elim
        simp only [List.cons_append, evalStrs]
        rw [Comp.bind_ok h1, Comp.bind_ok h5, Comp.bind_raise (ih _ _ h3)]
  simp only [eval]
  rw [Comp.bind_raise (key pre M ss h)]

/-- C70. Constant texts are joined as they are. -/
theorem C70_constant (σ : StateId) (ss : List Str) (M : Machine P W) :
    Gives (eval E σ (.concat (ss.map .strLit))) M (.str ss.flatten) M := by
  rw [C70_concat]
  refine ⟨ss, ?_, rfl⟩
  induction ss with
  | nil => exact .nil _
  | cons s ss ih =>
    refine .cons (v := .str s) (M1 := M) (M2 := M) ?_ (by simp) ?_ ih
    · simp only [Gives, eval]; rfl
    · simp only [Gives, strOf]; rfl

example : Toy.run (eval Toy.env 0 (.concat [.strLit (s!!"ab"), Toy.v 0, .strLit (s!!"c"), Toy.f 1]))
    (Toy.machine [Toy.num 12, .py (.fn 4)]) = (.ok (.str (s!!"ab12c4")), [4]) := rfl
example : Toy.run (eval Toy.env 0 (.format [.static (s!!"ab"), Toy.v 0, Toy.f 1]))
    (Toy.machine [.none, .py (.fn 4)]) = (.raise .noneString, []) := rfl

/-- A string; nothing else is. -/
def justStr : Val P → Comp P X W Str
  | .str s => pure s
  | _ => Comp.raise .typeErr

theorem evalChain_plus (σ : StateId) (es : List Expr) : ∀ (s0 : Str) (M M' : Machine P W) (ss : List Str),
    Pieces justStr (es.map (eval E σ)) M ss M' →
      evalChain E σ (es.map (fun _ => ['+'])) es (.str s0) M = (.ok (.str (s0 ++ ss.flatten)), M') := by
  induction es with
  | nil =>
    intro s0 M M' ss h
    cases h
    simp [evalChain, pure, Comp.pure]
  | cons e es ih =>
    intro s0 M M' ss h
    cases h with
    | @cons _ _ v s ss _ M1 M2 _ h1 hn h2 h3 =>
      have hv : v = .str s ∧ M2 = M1 := by
        unfold Gives at h2
        cases v <;> simp [justStr, Comp.raise, pure, Comp.pure] at h2 ⊢
        exact ⟨h2.1, h2.2.symm⟩
      obtain ⟨rfl, rfl⟩ := hv
      simp only [List.map_cons, evalChain]
      rw [Comp.bind_ok h1]
      have hb : binOp E ['+'] (.str s0) (.str s) M2 = (.ok (.str (s0 ++ s)), M2) := rfl
      rw [Comp.bind_ok hb, ih _ _ _ _ h3]
      simp

/-- C70. A sum of strings `e1 + e2 + ..` is the same: the strings joined in the order of writing. -/
theorem C70_sum (σ : StateId) (e : Expr) (es : List Expr) (M M' : Machine P W) (ss : List Str)
    (h : Pieces justStr ((e :: es).map (eval E σ)) M ss M') :
    Gives (eval E σ (.chain false e (es.map (fun _ => ['+'])) es)) M (.str ss.flatten) M' := by
  cases h with
  | @cons _ _ v s ss _ M1 M2 _ h1 hn h2 h3 =>
    have hv : v = .str s ∧ M2 = M1 := by
      unfold Gives at h2
      cases v <;> simp [justStr, Comp.raise, pure, Comp.pure] at h2 ⊢
      exact ⟨h2.1, h2.2.symm⟩
    obtain ⟨rfl, rfl⟩ := hv
    unfold Gives at *
    simp only [eval]
    rw [Comp.bind_ok h1]
    exact evalChain_plus E σ es s M2 M' ss h3

example : Toy.run (eval Toy.env 0 (.chain false (.strLit (s!!"ab")) [['+'], ['+']] [.strLit (s!!"c"), .strLit (s!!"d")]))
    (Toy.machine []) = (.ok (.str (s!!"abcd")), []) := rfl

/-! ### C71 Negation -/

/-- C71. `not e` is the negated truth of `e`. -/
theorem C71_not (σ : StateId) (e : Expr) (M M1 M2 : Machine P W) (v : Val P) (b : Bool)
    (h1 : Gives (eval E σ e) M v M1) (h2 : Gives (truthOf E v) M1 b M2) :
    Gives (eval E σ (.notTest 1 e)) M (.bool (!b)) M2 := by
  unfold Gives at *
  simp only [eval]
  rw [Comp.bind_ok h1]; simp only [if_true]
  rw [Comp.bind_ok h2]; rfl

/-- C71. Two adjacent `not`s cancel each other, in a chain of any length. -/
theorem C71_cancel (σ : StateId) (n : Nat) (e : Expr) :
    eval E σ (.notTest (n + 2) e) = eval E σ (.notTest n e) := by
  simp only [eval, Nat.add_mod_right]

/-- C71. None at all: `e` itself. Together with `C71_cancel`, an even number of `not`s is the value of
the operand, not its truth. -/
theorem C71_even (σ : StateId) (n : Nat) (e : Expr) :
    eval E σ (.notTest (2 * n) e) = eval E σ e := by
  simp only [eval, Nat.mul_mod_right, Nat.zero_ne_one, if_false]
  exact Comp.bind_pure _

/-- C71. An odd number of them is like one. -/
theorem C71_odd (σ : StateId) (n : Nat) (e : Expr) :
    eval E σ (.notTest (2 * n + 1) e) = eval E σ (.notTest 1 e) := by
  induction n with
  | zero => rfl
  | succ n ih => rw [← ih, ← C71_cancel E σ (2 * n + 1)]; rfl

/-- C71. Unary minus: `None` for `None`, Python's operator otherwise. -/
theorem C71_minus (σ : StateId) (e : Expr) (M M1 : Machine P W) (v : Val P)
    (h : Gives (eval E σ e) M v M1) :
    (v = .none → Gives (eval E σ (.chain true e [] [])) M .none M1) ∧
    ((∀ (_ : v = .none), False) →
      eval E σ (.chain true e [] []) M = runPy E (E.ops.neg v) M1) := by
  unfold Gives at *
  constructor
  · rintro rfl
    simp only [eval]
    rw [Comp.bind_ok h]; rfl
  · intro hv
    have hn : negate E v = runPy E (E.ops.neg v) := by
      cases v <;> first | rfl | exact (hv rfl).elim
    simp only [eval]
    rw [Comp.bind_ok h]; simp only [if_true, hn, evalChain]
    rw [Comp.bind_pure]

example : Toy.run (eval Toy.env 0 (.notTest 3 (Toy.v 0))) (Toy.machine [Toy.num 12]) =
    (.ok (.bool false), []) := rfl
example : Toy.run (eval Toy.env 0 (.notTest 2 (Toy.v 0))) (Toy.machine [Toy.num 12]) =
    (.ok (Toy.num 12), []) := rfl

/-! ### C72 Calls, subscripts and collections -/

/-- The values given without a name, in order. -/
def unnamedOf {α} (ps : List (Option Str × α)) : List α :=
  (ps.filter (fun p => p.1.isNone)).map Prod.snd

/-- The values given by name, in order. -/
def namedOf {α} (ps : List (Option Str × α)) : List (Str × α) :=
  ps.filterMap (fun p => p.1.map (fun n => (n, p.2)))

theorem positional_eq (names : List (Option Str)) (vs : List (Val P)) :
    positional names vs = unnamedOf (names.zip vs) := by
  induction names generalizing vs with
  | nil => simp [positional, unnamedOf]
  | cons n ns ih =>
    cases vs with
    | nil => cases n <;> simp [positional, unnamedOf]
    | cons v vs =>
      have := ih vs
      cases n <;> simp_all [positional, unnamedOf]

theorem keywords_eq (names : List (Option Str)) (vs : List (Val P)) :
    keywords names vs = namedOf (names.zip vs) := by
  induction names generalizing vs with
  | nil => simp [keywords, namedOf]
  | cons n ns ih =>
    cases vs with
    | nil => cases n <;> simp [keywords, namedOf]
    | cons v vs =>
      have := ih vs
      cases n <;> simp_all [keywords, namedOf]

/-- C72. A call passes the arguments without names in order, and each name with the last value given
for it; all arguments are evaluated in the order of writing, before the call. -/
theorem C72_call (σ : StateId) (names : List (Option Str)) (args : List Expr) (f : Val P) :
    ∃ kw : List (Val P) → Dict Str (Val P),
      (applyTail E σ (.call names args) f = do
        let vs ← inOrder (args.map (eval E σ))
        callVal E f (unnamedOf (names.zip vs)) (kw vs)) ∧
      ∀ vs, (∀ n, (kw vs).get? n = latest (namedOf (names.zip vs)) n) ∧
        FirstOccurrences ((namedOf (names.zip vs)).map Prod.fst) (kw vs).keys := by
  refine ⟨fun vs => Dict.update [] (keywords names vs), ?_, fun vs => ?_⟩
  · simp only [applyTail, evalList_eq, positional_eq]
  · have := keys_update (keywords names vs)
    simp only [keywords_eq] at this ⊢
    exact ⟨this.2, by rw [this.1]; exact firsts_spec _⟩

/-- C72. A call of an object outside of the model is the call of the object. -/
theorem C72_call_object (f : P) (args : List (Val P)) (kw : List (Str × Val P)) :
    callVal E (.py f) args kw = runPy E (E.ops.call (.py f) args kw) := by
  simp only [callVal]

/-- C72. `obj[i]` with a single subscript. -/
theorem C72_index (σ : StateId) (i : Expr) (obj : Val P) :
    applyTail E σ (.index [i]) obj = (do
      let v ← eval E σ i
      runPy E (E.ops.getitem obj v)) := by
  simp only [applyTail, evalList, Comp.bind_assoc, Comp.pure_bind]

/-- C72. `obj[a:b]`, `obj[a:b:c]`: a slice made of the parts in order, a missing part being `None`. -/
theorem C72_slice (σ : StateId) (a b : Expr) (rest : List Expr) (obj : Val P) :
    applyTail E σ (.index (a :: b :: rest)) obj = (do
      let vs ← inOrder ((a :: b :: rest).map (eval E σ))
      runPy E (E.ops.slice obj vs)) := by
  simp only [applyTail, evalList_eq, List.map_cons, inOrder, Comp.bind_assoc, Comp.pure_bind]

theorem C72_missing_part (σ : StateId) (M : Machine P W) :
    Gives (eval E σ .sliceNone) M .none M := by
  simp only [Gives, eval]; rfl

/-- C72. Lists, tuples and sets hold the values of the elements, evaluated in order. -/
theorem C72_collections (σ : StateId) (es : List Expr) :
    (eval E σ (.list es) = inOrder (es.map (eval E σ)) >>= fun vs => runPy E (E.ops.mkList vs)) ∧
    (eval E σ (.tuple es) = inOrder (es.map (eval E σ)) >>= fun vs => runPy E (E.ops.mkTuple vs)) ∧
    (eval E σ (.set es) = inOrder (es.map (eval E σ)) >>= fun vs => runPy E (E.ops.mkSet vs)) := by
  simp only [eval, evalList_eq, and_self]

/-- C72. A dictionary: keys and values are evaluated alternately, and paired. -/
theorem C72_dict (σ : StateId) (ps : List (Expr × Expr)) :
    eval E σ (.dict (ps.flatMap (fun p => [p.1, p.2]))) = (do
      let kvs ← inOrder (ps.map (fun p => do
        let k ← eval E σ p.1
        let v ← eval E σ p.2
        pure (k, v)))
      runPy E (E.ops.mkDict kvs)) := by
  simp only [eval]
  have key : ∀ (g : List (Val P × Val P) → Comp P X W (Val P)),
      (evalList E σ (ps.flatMap (fun p => [p.1, p.2])) >>= fun vs => g (pairUp vs)) =
      inOrder (ps.map (fun p => do
        let k ← eval E σ p.1
        let v ← eval E σ p.2
        pure (k, v))) >>= g := by
    induction ps with
    | nil => intro g; rfl
    | cons p ps ih =>
      intro g
      simp only [List.flatMap_cons, List.cons_append, List.nil_append, evalList, List.map_cons, inOrder,
        Comp.bind_assoc, Comp.pure_bind, pairUp]
      congr 1; funext k
      congr 1; funext v
      exact ih (fun kvs => g ((k, v) :: kvs))
  exact key (fun kvs => runPy E (E.ops.mkDict kvs))

/-- C72. Tail operators are applied left to right: `x.a[i](y)`. -/
theorem C72_tails (σ : StateId) (ts us : List Tail) (v : Val P) :
    applyTails E σ (ts ++ us) v = applyTails E σ ts v >>= applyTails E σ us := by
  induction ts generalizing v with
  | nil => simp only [List.nil_append, applyTails, Comp.pure_bind]
  | cons t ts ih => simp only [List.cons_append, applyTails, ih, Comp.bind_assoc]

-- f(7, k=1, 2) passes 7 and 2
example : Toy.run (eval Toy.env 0 (.factor (Toy.v 0)
      [.call [none, some (s!!"k"), none] [Toy.v 1, Toy.v 2, Toy.v 3]] none))
    (Toy.machine [.py (.fn 4), Toy.num 7, Toy.num 1, Toy.num 2]) = (.ok (Toy.num 706), [4]) := rfl
example : Toy.run (eval Toy.env 0 (.factor (.list [Toy.v 0, Toy.v 1, Toy.f 2])
      [.index [Toy.v 3, .sliceNone], .index [Toy.v 3]] none))
    (Toy.machine [Toy.num 9, Toy.num 7, .py (.fn 4), Toy.num 1]) = (.ok (Toy.num 4), [4]) := rfl

/-! ### C73 In-place assignment -/

/-- C73. `x op= e` stores `x op e` in the variable: the value of `x` is the one after the evaluation of
`e`; `sr` and `sw` are the slots of `x` before and after the assignment. -/
theorem C73_inplace (σ : StateId) (x : Str) (sr sw : Slot) (op : Str) (e : Expr)
    (M M1 M2 : Machine P W) (v cur r : Val P) (h1 : Gives (eval E σ e) M v M1)
    (h2 : (M1.states σ).values sr = some cur) (h3 : Gives (binOp E op cur v) M1 r M2) :
    ∃ M3, Gives (transl E σ (.assign (.many [.var x true (some sr) (some sw)]) (some op) e)) M .none M3 ∧
      (M3.states σ).values sw = some r ∧
      (∀ s, s ≠ sw → (M3.states σ).values s = (M2.states σ).values s) ∧
      (∀ τ, τ ≠ σ → M3.states τ = M2.states τ) ∧ M3.mem = M2.mem := by
  refine ⟨M2.updState σ (fun s => { s with values := fun t => if t = sw then some r else s.values t }),
    ?_, ?_, ?_, ?_, rfl⟩
  · unfold Gives at *
    have hr : readName (X := X) σ (some sr) M1 = (.ok cur, M1) := by
      simp only [readName]
      rw [Comp.bind_ok (a := some cur) (M' := M1) (by simp only [getSlot, h2])]; rfl
    have hi : inplace E σ (.many [.var x true (some sr) (some sw)]) (some op) v M1 = (.ok r, M2) := by
      simp only [inplace, evalTarget]
      rw [Comp.bind_ok hr]; exact h3
    simp only [transl]
    rw [Comp.bind_ok h1, Comp.bind_ok hi]
    rfl
  · simp [Machine.updState]
  · intro s hs
    simp [Machine.updState, hs]
  · intro τ hτ
    simp [Machine.updState, hτ]

/-- C73. Hence `x op= e` does the same as `x = x op e`, whenever evaluation of `e` succeeds and leaves
`x` alone. -/
theorem C73_as_plain (σ : StateId) (x : Str) (sr sw : Slot) (op : Str) (e : Expr) (read : Bool)
    (slotRead : Option Slot) (M M1 : Machine P W) (v cur : Val P)
    (h0 : (M.states σ).values sr = some cur) (h1 : Gives (eval E σ e) M v M1)
    (h2 : (M1.states σ).values sr = some cur) :
    transl E σ (.assign (.many [.var x true (some sr) (some sw)]) (some op) e) M =
      transl E σ (.assign (.many [.var x read slotRead (some sw)]) none
        (.chain false (.varUse x (some sr)) [op] [e])) M := by
  unfold Gives at h1
  have hr : ∀ M : Machine P W, (M.states σ).values sr = some cur →
      readName (X := X) σ (some sr) M = (.ok cur, M) := by
    intro M h
    simp only [readName]
    rw [Comp.bind_ok (a := some cur) (M' := M) (by simp only [getSlot, h])]; rfl
  simp only [transl, eval, evalChain, Bool.false_eq_true, if_false, inplace, evalTarget, Comp.bind_assoc,
    Comp.pure_bind, assignTarget]
  rw [Comp.bind_ok h1, Comp.bind_ok (hr M1 h2), Comp.bind_ok (hr M h0), Comp.bind_ok h1]

/-- C73. A variable without a value is an error, and nothing is assigned. -/
theorem C73_unbound (σ : StateId) (x : Str) (sr sw : Slot) (op : Str) (e : Expr)
    (M M1 : Machine P W) (v : Val P) (h1 : Gives (eval E σ e) M v M1)
    (h2 : (M1.states σ).values sr = none) :
    Raises (transl E σ (.assign (.many [.var x true (some sr) (some sw)]) (some op) e)) M .unbound M1 := by
  unfold Gives at h1
  unfold Raises
  simp only [transl, inplace, evalTarget, readName, Comp.bind_assoc]
  rw [Comp.bind_ok h1, Comp.bind_ok (a := .none) (M' := M1) (by simp only [getSlot, h2])]
  rfl

-- x -= 2 with x = 9
example : ((transl Toy.env 0 (.assign (.many [.var (s!!"x") true (some 0) (some 2)]) (some ['-'])
    (Toy.v 1)) (Toy.machine [Toy.num 9, Toy.num 2])).2.states 0).values 2 = some (Toy.num 7) := rfl

/-! ### C74 Hypertags in expressions -/

/-- C74. A hypertag that is mentioned in an expression becomes a function bound to the state of the place
of occurrence; an external tag is used as it is. -/
theorem C74_mention (σ : StateId) (sym : Str) (sl : Slot) (M : Machine P W) (v : Val P)
    (h : (M.states σ).values sl = some v) :
    (∀ t, v = .hyper t → Gives (eval E σ (.tagUse sym (some sl))) M (.embedded t σ) M) ∧
    ((∀ t, v ≠ .hyper t) → Gives (eval E σ (.tagUse sym (some sl))) M v M) := by
  unfold Gives
  simp only [eval, readName, Comp.bind_assoc]
  rw [Comp.bind_ok (a := some v) (M' := M) (by simp only [getSlot, h])]
  constructor
  · rintro t rfl
    rfl
  · intro ht
    cases v <;> first | rfl | exact (ht _ rfl).elim

end

section
variable {P X W : Type} (ops : PyOps P X W) (Γ : DefId → DefInfo P)

/-- C74. The function, called in whatever place with a text `b`, attributes `as` and `kw`, expands the
hypertag in the state of the place where it was mentioned, with a body consisting of one text node, drops
the indentation of the result, and returns it rendered. -/
theorem C74_call (n : Nat) (t : HVal) (st : StateId) (b : Val P) (as : List (Val P))
    (kw : Dict Str (Val P)) (hb : b ≠ .none)
    (hs : (Dict.get? kw (s!!"self")) = none) (hbs : Dict.get? kw (s!!"body_string") = none)
    (M M1 M2 M3 M4 M5 : Machine P W) (text out : Str) (r : Ref) (dom : List Ref)
    (h1 : Gives (strOf (envAt ops Γ n) b) M text M1)
    (h2 : Gives (newText (X := X) text none) M1 r M2)
    (h3 : Gives ((envAt ops Γ n).expand t (.node r) as kw st) M2 dom M3)
    (h4 : Gives (setIndent (X := X) [] dom) M3 () M4)
    (h5 : Gives (runPy (envAt ops Γ n) (ops.render dom)) M4 out M5) :
    Gives (callVal (envAt ops Γ (n + 1)) (.embedded t st) (b :: as) kw) M (.str out) M5 := by
  have hops : (envAt ops Γ n).ops = ops := by cases n <;> rfl
  unfold Gives at *
  have hbody : embeddedBody (envAt ops Γ n) b M = (.ok (.node r), M2) := by
    have : embeddedBody (envAt ops Γ n) b = (do
        let s ← strOf (envAt ops Γ n) b
        let r ← newText s .none
        return .node r) := by
      cases b <;> first | rfl | exact (hb rfl).elim
    rw [this]
    rw [Comp.bind_ok h1, Comp.bind_ok h2]; rfl
  simp only [callVal, embeddedArgs, hs, hbs, Option.isSome_none, Bool.false_eq_true, if_false]
  show callEmbedded (envAt ops Γ n) _ M = _
  simp only [callEmbedded]
  rw [Comp.bind_ok hbody, Comp.bind_ok h3, Comp.bind_ok h4, hops, Comp.bind_ok h5]; rfl

/-- C74. Without an argument, or with `None`, the body is empty. -/
theorem C74_no_body (n : Nat) (t : HVal) (st : StateId) (kw : Dict Str (Val P))
    (args : List (Val P)) (as : List (Val P)) (ha : args = [] ∧ as = [] ∨ args = .none :: as)
    (hs : (Dict.get? kw (s!!"self")) = none) (hbs : Dict.get? kw (s!!"body_string") = none)
    (M M3 M4 M5 : Machine P W) (out : Str) (dom : List Ref)
    (h3 : Gives ((envAt ops Γ n).expand t (.dom []) as kw st) M dom M3)
    (h4 : Gives (setIndent (X := X) [] dom) M3 () M4)
    (h5 : Gives (runPy (envAt ops Γ n) (ops.render dom)) M4 out M5) :
    Gives (callVal (envAt ops Γ (n + 1)) (.embedded t st) args kw) M (.str out) M5 := by
  have hops : (envAt ops Γ n).ops = ops := by cases n <;> rfl
  have he : Dict.erase kw (s!!"body_string") = kw := by
    have : ∀ d : Dict Str (Val P), Dict.get? d (s!!"body_string") = none →
        Dict.erase d (s!!"body_string") = d := by
      intro d
      induction d with
      | nil => intro _; rfl
      | cons p d ih =>
        intro h
        simp only [Dict.get?] at h
        split at h
        · cases h
        · rename_i hp
          simp only [Dict.erase, if_neg hp, ih h]
    exact this kw hbs
  unfold Gives at *
  have hc : callVal (envAt ops Γ (n + 1)) (.embedded t st) args kw =
      callEmbedded (envAt ops Γ n) { tag := t, state := st, body := .none, attrs := as, kwattrs := kw } := by
    rcases ha with ⟨rfl, rfl⟩ | rfl
    · simp only [callVal, embeddedArgs, hs, hbs, Option.isSome_none, Bool.false_eq_true, if_false,
        Option.getD_none, he]
      rfl
    · simp only [callVal, embeddedArgs, hs, hbs, Option.isSome_none, Bool.false_eq_true, if_false]
      rfl
  rw [hc]
  simp only [callEmbedded, embeddedBody, Comp.pure_bind]
  rw [Comp.bind_ok h3, Comp.bind_ok h4, hops, Comp.bind_ok h5]; rfl

/-- C74. The body can be given by the keyword `body_string`, in any place among the other keywords. -/
theorem C74_keyword_body (E : Env P X W) (t : HVal) (st : StateId) (b : Val P) (kw kw' : Dict Str (Val P))
    (h : ∀ a ∈ kw ++ kw', a.1 ≠ s!!"self" ∧ a.1 ≠ s!!"body_string") :
    callVal E (.embedded t st) [] (kw ++ (s!!"body_string", b) :: kw') = callVal E (.embedded t st) [b] (kw ++ kw') := by
  have hn : ∀ (n : Str) (d : Dict Str (Val P)), (∀ a ∈ d, a.1 ≠ n) → Dict.get? d n = none := by
    intro n d
    induction d with
    | nil => intro _; rfl
    | cons p d ih =>
      intro h
      have h1 := h p (List.mem_cons_self ..)
      simp only [Dict.get?, h1, if_false]
      exact ih (fun a ha => h a (List.mem_cons_of_mem _ ha))
  have he : ∀ d : Dict Str (Val P), (∀ a ∈ d, a.1 ≠ s!!"body_string") →
      Dict.get? (d ++ (s!!"body_string", b) :: kw') (s!!"body_string") = some b ∧
      Dict.erase (d ++ (s!!"body_string", b) :: kw') (s!!"body_string") = d ++ kw' := by
    intro d
    induction d with
    | nil => intro _; exact ⟨by simp [Dict.get?], by simp [Dict.erase]⟩
    | cons p d ih =>
      intro h
      have h1 := h p (List.mem_cons_self ..)
      obtain ⟨i1, i2⟩ := ih (fun a ha => h a (List.mem_cons_of_mem _ ha))
      simp only [List.cons_append, Dict.get?, Dict.erase, h1, if_false, i1, i2, and_self]
  have e1 := he kw (fun a ha => (h a (List.mem_append_left _ ha)).2)
  have e2 := hn (s!!"self") (kw ++ (s!!"body_string", b) :: kw') (by
    intro a ha
    simp only [List.mem_append, List.mem_cons] at ha
    rcases ha with ha | rfl | ha
    · exact (h a (List.mem_append_left _ ha)).1
    · simp
    · exact (h a (List.mem_append_right _ ha)).1)
  have e3 := hn (s!!"self") (kw ++ kw') (fun a ha => (h a ha).1)
  have e4 := hn (s!!"body_string") (kw ++ kw') (fun a ha => (h a ha).2)
  simp only [callVal, embeddedArgs, e1, e2, e3, e4, Option.isSome_none, Bool.false_eq_true, if_false, Option.getD_some]

/-- C74. The keywords `self` and, when the body is given by position, `body_string` are rejected with
`TypeError`, even if the hypertag has such attributes. -/
theorem C74_reserved (E : Env P X W) (t : HVal) (st : StateId) (args : List (Val P))
    (kw : Dict Str (Val P)) (M : Machine P W)
    (h : (Dict.get? kw (s!!"self")).isSome ∨
      args ≠ [] ∧ (Dict.get? kw (s!!"body_string")).isSome) :
    Raises (callVal E (.embedded t st) args kw) M .typeErr M := by
  have : embeddedArgs args kw = none := by
    unfold embeddedArgs
    rcases h with h | ⟨ha, h⟩
    · rw [if_pos h]
    · split
      · rfl
      · cases args with
        | nil => exact (ha rfl).elim
        | cons b as => simp only
  simp only [Raises, callVal, this, Comp.raise]

end

/-- A hypertag without attributes and with a `@body` attribute in slot 1, `% H @b` with the body `@b`, called as a
function: `%H('t')` is `t`. -/
example :
    let Γ : DefId → DefInfo Toy.Obj := fun _ =>
      { bodyAttr := some ⟨s!!"b", none, some 1⟩, attrs := [], body := .embed (Toy.v 1) }
    (match Toy.run (eval (envAt Toy.ops Γ 3) 0 (.factor (.tagUse (s!!"%H") (some 0))
        [.call [none] [.strLit (s!!"t")]] none)) (Toy.machine [.hyper (.defn 0)]) with
      | (.ok (.str s), []) => decide (s = (s!!"t"))
      | _ => false) = true := by decide +kernel

end Verif
