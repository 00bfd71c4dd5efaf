import Verif.Lemmas.Tidy
import Verif.Props.Scope
import Verif.Props.Blocks
import Verif.Props.Safety

/-! C100: expansions of hypertags and the variables of earlier expansions. -/

namespace Verif
open Py Spec

section
variable {P X W : Type}

/-! ### C100 Expansions of hypertags do not influence each other -/

/-- The variables after any number of expansions, and uses of hypertags as functions, with any arguments, outcomes and changes of the
memory in between. -/
inductive Earlier (ops : PyOps P X W) (Γ : DefId → DefInfo P) : (StateId → TState P) → (StateId → TState P) → Prop
  | none {st} : Earlier ops Γ st st
  | expand {st st'} (n h b as kw σ m) : Earlier ops Γ st st' → Earlier ops Γ st ((envAt ops Γ n).expand h b as kw σ ⟨st', m⟩).2.states
  | call {st st'} (n c m) : Earlier ops Γ st st' → Earlier ops Γ st ((envAt ops Γ n).call c ⟨st', m⟩).2.states

/-- The expansion of a hypertag depends only on its arguments, on the memory and on the variables outside of hypertags. -/
theorem C100_variables_partial (ops : PyOps P X W) (Γ : DefId → DefInfo P) {K : Slot → Prop} (hΓ : ∀ id, Tidy K (Γ id)) (n : Nat)
    (h : HVal) (b : Val P) (as : List (Val P)) (kw : List (Str × Val P)) (σ : StateId) {st st' : StateId → TState P}
    (hi : ∀ τ, (st τ).indentation = (st' τ).indentation) (hv : ∀ τ sl, K sl → (st τ).values sl = (st' τ).values sl) (m : Mem P W) :
    ((envAt ops Γ n).expand h b as kw σ ⟨st, m⟩).1 = ((envAt ops Γ n).expand h b as kw σ ⟨st', m⟩).1 ∧
    ((envAt ops Γ n).expand h b as kw σ ⟨st, m⟩).2.mem = ((envAt ops Γ n).expand h b as kw σ ⟨st', m⟩).2.mem := by
  have := (envAt_blind ops Γ hΓ n (fun _ => K) (fun _ _ k => k)).expand h b as kw σ ⟨st, m⟩ ⟨st', m⟩ ⟨rfl, hi, hv⟩
  exact ⟨this.1, this.2.1.mem⟩

/-- Earlier expansions leave the variables outside of hypertags and the indentation. -/
theorem earlier_same {ops : PyOps P X W} {Γ : DefId → DefInfo P} {K : Slot → Prop} (hΓ : ∀ id, Tidy K (Γ id)) (hb : ∀ id, (Γ id).body.isBlock)
    {st st' : StateId → TState P} (h : Earlier ops Γ st st') :
    (∀ τ, (st' τ).indentation = (st τ).indentation) ∧ ∀ τ sl, K sl → (st' τ).values sl = (st τ).values sl := by
  have hw : ∀ id, (Γ id).writes (fun o => ∀ sl, K sl → o ≠ some sl) :=
    fun id => DefInfo.writes_mono (fun o k sl hk e => k sl e hk) (hΓ id).assigns
  induction h with
  | none => exact ⟨fun _ => rfl, fun _ _ _ => rfl⟩
  | expand n h b as kw σ m _ ih =>
    exact ⟨fun τ => ((envAt_restores ops Γ hb n).expand h b as kw σ _ τ).trans (ih.1 τ),
      fun τ sl k => ((envAt_same K ops Γ hw n).expand h b as kw σ _ τ sl k).trans (ih.2 τ sl k)⟩
  | call n c m _ ih =>
    exact ⟨fun τ => ((envAt_restores ops Γ hb n).call c _ τ).trans (ih.1 τ),
      fun τ sl k => ((envAt_same K ops Γ hw n).call c _ τ sl k).trans (ih.2 τ sl k)⟩

/-- Whatever was expanded before, and however it ended, an expansion gives the same nodes or the same exception, and leaves the same memory. -/
theorem C100_independent_partial (ops : PyOps P X W) (Γ : DefId → DefInfo P) {K : Slot → Prop} (hΓ : ∀ id, Tidy K (Γ id))
    (hb : ∀ id, (Γ id).body.isBlock) {st st' : StateId → TState P} (he : Earlier ops Γ st st') (n : Nat)
    (h : HVal) (b : Val P) (as : List (Val P)) (kw : List (Str × Val P)) (σ : StateId) (m : Mem P W) :
    ((envAt ops Γ n).expand h b as kw σ ⟨st', m⟩).1 = ((envAt ops Γ n).expand h b as kw σ ⟨st, m⟩).1 ∧
    ((envAt ops Γ n).expand h b as kw σ ⟨st', m⟩).2.mem = ((envAt ops Γ n).expand h b as kw σ ⟨st, m⟩).2.mem :=
  C100_variables_partial ops Γ hΓ n h b as kw σ (earlier_same hΓ hb he).1 (earlier_same hΓ hb he).2 m

/-- The same for a hypertag that is used as a function in an expression. -/
theorem C100_function_partial (ops : PyOps P X W) (Γ : DefId → DefInfo P) {K : Slot → Prop} (hΓ : ∀ id, Tidy K (Γ id))
    (hb : ∀ id, (Γ id).body.isBlock) {st st' : StateId → TState P} (he : Earlier ops Γ st st') (n : Nat) (c : Callback P) (m : Mem P W) :
    ((envAt ops Γ n).call c ⟨st', m⟩).1 = ((envAt ops Γ n).call c ⟨st, m⟩).1 ∧
    ((envAt ops Γ n).call c ⟨st', m⟩).2.mem = ((envAt ops Γ n).call c ⟨st, m⟩).2.mem := by
  obtain ⟨hi, hv⟩ := earlier_same hΓ hb he
  have := (envAt_blind ops Γ hΓ n (fun _ => K) (fun _ _ k => k)).call c ⟨st', m⟩ ⟨st, m⟩ ⟨rfl, hi, hv⟩
  exact ⟨this.1, this.2.1.mem⟩

end

/-! ### Examples -/

namespace FreshEx

/-- `%H x` with `if x` / `$y = x` and then `{y}`, in slots 1 and 2. -/
def stale : DefInfo Toy.Obj :=
  ⟨none, [⟨s!!"x", none, some 1⟩], .body [.ifBlock [(.varUse (s!!"x") (some 1), some (.body [.assign (.var (s!!"y") false none (some 2)) none (.varUse (s!!"x") (some 1))]))] none,
    .text 0 [.line (.normal [.varUse (s!!"y") (some 2)])]]⟩

/-- The same with `$y = g` first, where `g` is a variable of the document in slot 0. -/
def tidy : DefInfo Toy.Obj :=
  ⟨none, [⟨s!!"x", none, some 1⟩], .body [.assign (.var (s!!"y") false none (some 2)) none (.varUse (s!!"g") (some 0)), .ifBlock [(.varUse (s!!"x") (some 1), some (.body [.assign (.var (s!!"y") false none (some 2)) none (.varUse (s!!"x") (some 1))]))] none,
    .text 0 [.line (.normal [.varUse (s!!"y") (some 2)])]]⟩

theorem tidy_tidy : Tidy (· = 0) tidy := by
  refine ⟨by decide, ?_, ?_, ?_⟩
  · intro a ha
    simp only [tidy, List.mem_singleton] at ha
    subst ha
    simp [Expr.readsOpt]
  · refine .weaken (.cons (K' := plus (plus (· = 0) [1]) [2]) (.assign ?_ ?_) (.any ?_)) (fun _ h => h.elim)
    · simp [Expr.reads, Spec.Known, plus]
    · simp [Target.reads]
    · simp [Stmt.reads, Stmt.readsAll, Stmt.readsClauses, Stmt.readsClause, Stmt.readsOpt, Expr.reads, Expr.readsAll, Target.reads, TextItem.reads,
        Line.reads, Spec.Known, plus]
  · refine ⟨nofun, ?_, ?_⟩
    · intro a ha
      simp only [tidy, List.mem_singleton] at ha
      subst ha
      simp
    · simp [tidy, Stmt.writes, Stmt.writesAll, Stmt.writesClauses, Stmt.writesClause, Stmt.writesOpt, Target.writes]

/-- The text of the node made by an expansion. -/
def text (d : DefInfo Toy.Obj) (st : StateId → TState Toy.Obj) (x : Val Toy.Obj) : Option Str :=
  match (envAt Toy.ops (fun _ => d) 9).expand (.defn 0) (.dom []) [x] [] 0 ⟨st, (Toy.machine []).mem⟩ with
  | (.ok [r], M) => (M.mem.nodes r).body.findSome? (fun q => match (M.mem.nodes q).cls with | .text s => some s | _ => none)
  | _ => none

/-- Variables of the document. -/
def start : StateId → TState Toy.Obj := (Toy.machine [.str (s!!"g")]).states

/-- After `H "a"`. -/
def after (d : DefInfo Toy.Obj) : StateId → TState Toy.Obj :=
  ((envAt Toy.ops (fun _ => d) 9).expand (.defn 0) (.dom []) [.str (s!!"a")] [] 0 ⟨start, (Toy.machine []).mem⟩).2.states

/-- `H ""` after `H "a"`: the theorems apply. -/
example : (text tidy start (.str []), text tidy (after tidy) (.str [])) = (some (s!!"g"), some (s!!"g")) := by decide +kernel

example (m : Mem Toy.Obj Toy.World) :
    ((envAt Toy.ops (fun _ => tidy) 9).expand (.defn 0) (.dom []) [.str []] [] 0 ⟨after tidy, m⟩).2.mem =
      ((envAt Toy.ops (fun _ => tidy) 9).expand (.defn 0) (.dom []) [.str []] [] 0 ⟨start, m⟩).2.mem :=
  (C100_independent_partial Toy.ops (fun _ => tidy) (fun _ => tidy_tidy) (fun _ => by simp [tidy, Stmt.isBlock]) (.expand _ _ _ _ _ _ _ .none) 9 _ _ _ _ 0 m).2

/-- The variable of the document has an influence: `K` can not be empty. -/
example : text tidy (Toy.machine [.str (s!!"h")]).states (.str []) = some (s!!"h") := by decide +kernel

end FreshEx

/-- The expansion of a hypertag may depend on earlier ones: a variable that is assigned only in some cases keeps the value that it had
at the end of the expansion before. -/
theorem C100_not_in_general : ¬ ∀ (Γ : DefId → DefInfo Toy.Obj) (_ : ∀ id, (Γ id).body.isBlock) (st st' : StateId → TState Toy.Obj)
    (_ : Earlier Toy.ops Γ st st') (n : Nat) (h : HVal) (b : Val Toy.Obj) (as : List (Val Toy.Obj)) (kw : List (Str × Val Toy.Obj)) (σ : StateId)
    (m : Mem Toy.Obj Toy.World),
    ((envAt Toy.ops Γ n).expand h b as kw σ ⟨st', m⟩).1 = ((envAt Toy.ops Γ n).expand h b as kw σ ⟨st, m⟩).1 := by
  intro H
  have := H (fun _ => FreshEx.stale) (fun _ => by simp [FreshEx.stale, Stmt.isBlock]) FreshEx.start (FreshEx.after FreshEx.stale)
    (.expand 9 (.defn 0) (.dom []) [.str (s!!"a")] [] 0 _ .none) 9 (.defn 0) (.dom []) [.str []] [] 0 (Toy.machine []).mem
  have := congrArg (fun r => match r with | Res.ok (_ :: _) => true | _ => false) this
  revert this
  decide +kernel

/-- The same in the text of a script: the second `H ""` shows the value of the first one; alone, it fails. With an assignment before,
it does not. -/
example :
    exText [] (s!!"%H x\n  if x\n    $y = x\n  | {y}.\nH \"a\"\nH \"\"\n") = some (s!!"a.\na.\n") ∧
    exText [] (s!!"%H x\n  if x\n    $y = x\n  | {y}.\nH \"\"\n") = none ∧
    exText [] (s!!"%H x\n  $y = \"-\"\n  if x\n    $y = x\n  | {y}.\nH \"a\"\nH \"\"\n") = some (s!!"a.\n-.\n") := by
  decide +kernel

end Verif
