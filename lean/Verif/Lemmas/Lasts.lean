import Verif.Lemmas.TransFrame
import Verif.Lemmas.Comp

/-! Larger bounds of recursion and of loops: a computation that ends within smaller bounds is not changed. -/

set_option linter.unusedSectionVars false

namespace Verif
open Py

section
variable {P X W α β : Type}

/-- If `c` ends, then `c'` does the same. -/
def Lasts (c c' : Comp P X W α) : Prop := ∀ M, (c M).1 ≠ .timeout → c' M = c M

/-- An environment with larger bounds. -/
structure LastsEnv (E E' : Env P X W) : Prop where
  ops : E.ops = E'.ops
  fuel : E.fuel ≤ E'.fuel
  expand : ∀ h b vs kw σ, Lasts (E.expand h b vs kw σ) (E'.expand h b vs kw σ)
  call : ∀ c, Lasts (E.call c) (E'.call c)

namespace Lasts

theorem refl (c : Comp P X W α) : Lasts c c := fun _ _ => rfl

theorem pure (a : α) : Lasts (Pure.pure a : Comp P X W α) (Pure.pure a) := refl _

theorem raise (e : Exn X) : Lasts (Comp.raise e : Comp P X W α) (Comp.raise e) := refl _

theorem timeout (c : Comp P X W α) : Lasts Comp.timeout c := fun _ h => absurd rfl h

theorem bind {c c' : Comp P X W α} {f f' : α → Comp P X W β} (hc : Lasts c c') (hf : ∀ a, Lasts (f a) (f' a)) :
    Lasts (c >>= f) (c' >>= f') := by
  intro M h
  rw [Comp.bind_run] at h
  rw [Comp.bind_run, Comp.bind_run]
  have h1 := hc M
  generalize c M = x at h h1 ⊢
  obtain ⟨r, N⟩ := x
  cases r with
  | ok a => rw [h1 nofun]; exact hf a N h
  | raise e => rw [h1 nofun]; rfl
  | timeout => exact absurd rfl h

theorem ite {p : Prop} [Decidable p] {a b a' b' : Comp P X W α} (ha : Lasts a a') (hb : Lasts b b') :
    Lasts (if p then a else b) (if p then a' else b') := by
  split
  · exact ha
  · exact hb

theorem tryExcept {c c' h h' : Comp P X W α} (hc : Lasts c c') (hh : Lasts h h') :
    Lasts (Comp.tryExcept c h) (Comp.tryExcept c' h') := by
  intro M hn
  unfold Comp.tryExcept at hn ⊢
  have h1 := hc M
  generalize c M = x at hn h1 ⊢
  obtain ⟨r, N⟩ := x
  cases r with
  | ok a => rw [h1 nofun]; rfl
  | raise e =>
    rw [h1 nofun]
    simp only [Comp.handle] at hn ⊢
    split
    · rename_i he
      rw [if_pos he] at hn
      exact hh N hn
    · rfl
  | timeout => exact absurd rfl hn

theorem keepIndent (σ : StateId) {c c' : Comp P X W α} (hc : Lasts c c') : Lasts (keepIndent σ c) (Verif.keepIndent σ c') := by
  intro M h
  simp only [Verif.keepIndent, restoring] at h ⊢
  rw [hc M h]

theorem runProc {cb cb' : Callback P → Comp P X W (Val P)} (hcb : ∀ c, Lasts (cb c) (cb' c)) (p : Proc P X W α) :
    ∀ st, (runProc cb p st).1 ≠ .timeout → Verif.runProc cb' p st = Verif.runProc cb p st := by
  induction p with
  | ret a m => exact fun _ _ => rfl
  | raise e m => exact fun _ _ => rfl
  | call c m k ih =>
    intro st h
    simp only [Verif.runProc] at h ⊢
    have h1 := hcb c ⟨st, m⟩
    generalize cb c ⟨st, m⟩ = x at h h1 ⊢
    obtain ⟨r, N⟩ := x
    cases r with
    | ok v => rw [h1 nofun]; exact ih _ _ _ h
    | raise e => rw [h1 nofun]; exact ih _ _ _ h
    | timeout => exact absurd rfl h

end Lasts

section
variable {E E' : Env P X W} (hE : LastsEnv E E')
include hE

theorem LastsEnv.runPy (c : PyM P X W α) : Lasts (runPy E c) (Verif.runPy E' c) :=
  fun _ h => Lasts.runProc hE.call _ _ h

/-! ### Expressions -/

theorem qualStep_lasts (q : Option Qual) (hv : ∀ v, Lasts (qualCheck E q v) (qualCheck E' q v)) {c c' : Comp P X W (Val P)} (hc : Lasts c c') :
    Lasts (qualified E q c) (qualified E' q c') := by
  intro M h
  unfold qualified at h ⊢
  have h1 := hc M
  generalize c M = x at h h1 ⊢
  obtain ⟨r, N⟩ := x
  cases r with
  | ok v => rw [h1 nofun]; exact hv v N h
  | raise e => rw [h1 nofun]; rfl
  | timeout => exact absurd rfl h

theorem truthOf_lasts (v : Val P) : Lasts (truthOf E v) (truthOf E' v) := by
  cases v <;> simp only [truthOf, hE.ops] <;> first | exact hE.runPy _ | exact Lasts.pure _

theorem strOf_lasts (v : Val P) : Lasts (strOf E v) (strOf E' v) := by
  cases v <;> simp only [strOf, hE.ops] <;> first | exact hE.runPy _ | exact Lasts.pure _

theorem STR_lasts (v : Val P) : Lasts (STR E v) (STR E' v) := by
  cases v <;> simp only [STR] <;> first | exact strOf_lasts hE _ | exact Lasts.raise _

theorem binOp_lasts (op : Str) (a b : Val P) : Lasts (binOp E op a b) (binOp E' op a b) := by
  unfold Verif.binOp
  rw [hE.ops]
  split
  · exact Lasts.pure _
  · exact Lasts.pure _
  · exact hE.runPy _

theorem callVal_lasts : ∀ (g : Val P) (args : List (Val P)) (kw : List (Str × Val P)), Lasts (callVal E g args kw) (callVal E' g args kw)
  | .embedded h st, args, kw => by
    simp only [callVal]
    cases embeddedArgs args kw with
    | none => exact Lasts.raise _
    | some t => exact hE.call _
  | .part g as k, args, [] => by simp only [callVal]; exact callVal_lasts g _ _
  | .part g as k, args, a :: b => by simp only [callVal]; exact Lasts.raise _
  | .py p, args, kw => by simp only [callVal, hE.ops]; exact hE.runPy _
  | .none, args, kw => by simp only [callVal, hE.ops]; exact hE.runPy _
  | .bool _, args, kw => by simp only [callVal, hE.ops]; exact hE.runPy _
  | .str _, args, kw => by simp only [callVal, hE.ops]; exact hE.runPy _
  | .dom _, args, kw => by simp only [callVal, hE.ops]; exact hE.runPy _
  | .node _, args, kw => by simp only [callVal, hE.ops]; exact hE.runPy _
  | .hyper _, args, kw => by simp only [callVal, hE.ops]; exact hE.runPy _

theorem qualCheck_lasts (q : Option Qual) (v : Val P) : Lasts (qualCheck E q v) (qualCheck E' q v) := by
  refine Lasts.bind (truthOf_lasts hE v) (fun b => Lasts.ite (Lasts.pure _) ?_)
  cases q with
  | none => exact Lasts.pure _
  | some q =>
    cases q with
    | opt => exact Lasts.pure _
    | obl => simp only [hE.ops]; exact Lasts.bind (hE.runPy _) (fun _ => Lasts.raise _)

theorem qualified_lasts (q : Option Qual) {c c' : Comp P X W (Val P)} (hc : Lasts c c') : Lasts (qualified E q c) (qualified E' q c') :=
  qualStep_lasts hE q (qualCheck_lasts hE q) hc

theorem negate_lasts (v : Val P) : Lasts (negate E v) (negate E' v) := by
  cases v <;> simp only [negate, hE.ops] <;> first | exact hE.runPy _ | exact Lasts.pure _

mutual
theorem eval_lasts (σ : StateId) : ∀ e : Expr, Lasts (eval E σ e) (eval E' σ e)
  | .root q e => by
    simp only [eval]; exact qualified_lasts hE q (eval_lasts σ e)
  | .tagUse _ slot => by
    simp only [eval]; exact Lasts.bind (.refl _) (fun _ => Lasts.pure _)
  | .varUse _ slot => by
    simp only [eval]; exact Lasts.refl _
  | .factor a ts q => by
    simp only [eval]
    exact qualified_lasts hE q (Lasts.bind (eval_lasts σ a) (fun v => applyTails_lasts σ ts v))
  | .chain neg a ops es => by
    simp only [eval]
    exact Lasts.bind (eval_lasts σ a) (fun v => Lasts.ite
      (Lasts.bind (negate_lasts hE v) (fun w => evalChain_lasts σ ops es w))
      (Lasts.bind (Lasts.pure v) (fun w => evalChain_lasts σ ops es w)))
  | .concat es => by
    simp only [eval]; exact Lasts.bind (evalStrs_lasts σ es) (fun _ => Lasts.pure _)
  | .bits op a es => by
    simp only [eval]; exact Lasts.bind (eval_lasts σ a) (fun v => evalBits_lasts σ op es v)
  | .pipeline a es => by
    simp only [eval]; exact Lasts.bind (eval_lasts σ a) (fun v => evalPipe_lasts σ es v)
  | .notTest n e => by
    simp only [eval]
    exact Lasts.bind (eval_lasts σ e) (fun v => Lasts.ite (Lasts.bind (truthOf_lasts hE v) (fun _ => Lasts.pure _)) (Lasts.pure _))
  | .andTest a es => by
    simp only [eval]; exact Lasts.bind (eval_lasts σ a) (fun v => evalAnd_lasts σ es v)
  | .orTest a es => by
    simp only [eval]; exact Lasts.bind (eval_lasts σ a) (fun v => evalOr_lasts σ es v)
  | .ifElse x t none => by
    simp only [eval]
    exact Lasts.bind (eval_lasts σ t) (fun v => Lasts.bind (truthOf_lasts hE v) (fun b => Lasts.ite (eval_lasts σ x) (Lasts.pure _)))
  | .ifElse x t (some y) => by
    simp only [eval]
    exact Lasts.bind (eval_lasts σ t) (fun v => Lasts.bind (truthOf_lasts hE v) (fun b => Lasts.ite (eval_lasts σ x) (eval_lasts σ y)))
  | .list es => by
    simp only [eval, hE.ops]; exact Lasts.bind (evalList_lasts σ es) (fun _ => hE.runPy _)
  | .tuple es => by
    simp only [eval, hE.ops]; exact Lasts.bind (evalList_lasts σ es) (fun _ => hE.runPy _)
  | .set es => by
    simp only [eval, hE.ops]; exact Lasts.bind (evalList_lasts σ es) (fun _ => hE.runPy _)
  | .dict es => by
    simp only [eval, hE.ops]; exact Lasts.bind (evalList_lasts σ es) (fun _ => hE.runPy _)
  | .format es => by
    simp only [eval]; exact Lasts.bind (evalStrs_lasts σ es) (fun _ => Lasts.pure _)
  | .static _ => by simp only [eval]; exact Lasts.pure _
  | .strLit _ => by simp only [eval]; exact Lasts.pure _
  | .number _ => by simp only [eval, hE.ops]; exact Lasts.pure _
  | .boolean _ => by simp only [eval]; exact Lasts.pure _
  | .noneLit => by simp only [eval]; exact Lasts.pure _
  | .sliceNone => by simp only [eval]; exact Lasts.pure _
theorem evalList_lasts (σ : StateId) : ∀ es : List Expr, Lasts (evalList E σ es) (evalList E' σ es)
  | [] => by simp only [evalList]; exact Lasts.pure _
  | e :: es => by
    simp only [evalList]
    exact Lasts.bind (eval_lasts σ e) (fun v => Lasts.bind (evalList_lasts σ es) (fun vs => Lasts.pure _))
theorem evalChain_lasts (σ : StateId) : ∀ (ops : List Str) (es : List Expr) (v : Val P),
    Lasts (evalChain E σ ops es v) (evalChain E' σ ops es v)
  | [], es, v => by simp only [evalChain]; exact Lasts.pure _
  | op :: ops, [], v => by simp only [evalChain]; exact Lasts.pure _
  | op :: ops, e :: es, v => by
    simp only [evalChain]
    exact Lasts.bind (eval_lasts σ e) (fun w => Lasts.bind (binOp_lasts hE op v w) (fun r => evalChain_lasts σ ops es r))
theorem evalStrs_lasts (σ : StateId) : ∀ es : List Expr, Lasts (evalStrs E σ es) (evalStrs E' σ es)
  | [] => by simp only [evalStrs]; exact Lasts.pure _
  | e :: es => by
    simp only [evalStrs]
    exact Lasts.bind (eval_lasts σ e) (fun v => Lasts.bind (STR_lasts hE v) (fun s => Lasts.bind (evalStrs_lasts σ es) (fun _ => Lasts.pure _)))
theorem evalBits_lasts (σ : StateId) (op : Str) : ∀ (es : List Expr) (v : Val P), Lasts (evalBits E σ op es v) (evalBits E' σ op es v)
  | [], v => by simp only [evalBits]; exact Lasts.pure _
  | e :: es, v => by
    simp only [evalBits]
    exact Lasts.bind (eval_lasts σ e) (fun w => Lasts.bind (binOp_lasts hE op v w) (fun r => evalBits_lasts σ op es r))
theorem evalPipe_lasts (σ : StateId) : ∀ (es : List Expr) (v : Val P), Lasts (evalPipe E σ es v) (evalPipe E' σ es v)
  | [], v => by simp only [evalPipe]; exact Lasts.pure _
  | e :: es, v => by
    simp only [evalPipe]
    exact Lasts.bind (eval_lasts σ e) (fun w => Lasts.bind (callVal_lasts hE _ _ _) (fun r => evalPipe_lasts σ es r))
theorem evalAnd_lasts (σ : StateId) : ∀ (es : List Expr) (v : Val P), Lasts (evalAnd E σ es v) (evalAnd E' σ es v)
  | [], v => by simp only [evalAnd]; exact Lasts.pure _
  | e :: es, v => by
    simp only [evalAnd]
    exact Lasts.bind (truthOf_lasts hE v) (fun b => Lasts.ite (Lasts.bind (truthOf_lasts hE v) (fun b => Lasts.ite
      (Lasts.bind (eval_lasts σ e) (fun w => evalAnd_lasts σ es w)) (evalAnd_lasts σ es v))) (Lasts.pure _))
theorem evalOr_lasts (σ : StateId) : ∀ (es : List Expr) (v : Val P), Lasts (evalOr E σ es v) (evalOr E' σ es v)
  | [], v => by simp only [evalOr]; exact Lasts.pure _
  | e :: es, v => by
    simp only [evalOr]
    exact Lasts.bind (truthOf_lasts hE v) (fun b => Lasts.ite (Lasts.pure _) (Lasts.bind (truthOf_lasts hE v) (fun b => Lasts.ite
      (evalOr_lasts σ es v) (Lasts.bind (eval_lasts σ e) (fun w => evalOr_lasts σ es w)))))
theorem applyTails_lasts (σ : StateId) : ∀ (ts : List Tail) (v : Val P), Lasts (applyTails E σ ts v) (applyTails E' σ ts v)
  | [], v => by simp only [applyTails]; exact Lasts.pure _
  | t :: ts, v => by
    simp only [applyTails]
    exact Lasts.bind (applyTail_lasts σ t v) (fun r => applyTails_lasts σ ts r)
theorem applyTail_lasts (σ : StateId) : ∀ (t : Tail) (v : Val P), Lasts (applyTail E σ t v) (applyTail E' σ t v)
  | .call names args, g => by
    simp only [applyTail]
    exact Lasts.bind (evalList_lasts σ args) (fun vs => callVal_lasts hE _ _ _)
  | .partialCall names [], g => by
    simp only [applyTail]
    exact Lasts.pure _
  | .partialCall names (e :: es), g => by
    have := evalList_lasts σ (e :: es)
    simp only [applyTail, List.isEmpty_cons]
    exact Lasts.bind this (fun vs => Lasts.pure _)
  | .index es, obj => by
    simp only [applyTail, hE.ops]
    refine Lasts.bind (evalList_lasts σ es) (fun vs => ?_)
    split <;> exact hE.runPy _
  | .member name, obj => by simp only [applyTail, hE.ops]; exact hE.runPy _
end



end

/-! ### Parts of statements -/

theorem whileLoop_lasts {test test' : Comp P X W Bool} {body body' : Comp P X W (List Ref)} (ht : Lasts test test')
    (hb : Lasts body body') (k k' : Nat) (hk : k ≤ k') (out : List Ref) (empty : Bool) :
    Lasts (whileLoop test body k out empty) (whileLoop test' body' k' out empty) := by
  induction k generalizing k' out empty with
  | zero => exact Lasts.timeout _
  | succ k ih =>
    cases k' with
    | zero => exact absurd hk (Nat.not_succ_le_zero k)
    | succ k' => exact Lasts.bind ht (fun b => Lasts.ite (Lasts.bind hb (fun ns => ih k' (Nat.le_of_succ_le_succ hk) _ _)) (Lasts.pure _))

theorem forLoop_lasts {next next' : Comp P X W (Option (Val P))} {step step' : Val P → Comp P X W (List Ref)}
    (hn : Lasts next next') (hs : ∀ v, Lasts (step v) (step' v)) (k k' : Nat) (hk : k ≤ k') (out : List Ref) (empty : Bool) :
    Lasts (forLoop next step k out empty) (forLoop next' step' k' out empty) := by
  induction k generalizing k' out empty with
  | zero => exact Lasts.timeout _
  | succ k ih =>
    cases k' with
    | zero => exact absurd hk (Nat.not_succ_le_zero k)
    | succ k' =>
      refine Lasts.bind hn (fun o => ?_)
      cases o with
      | none => exact Lasts.pure _
      | some v => exact Lasts.bind (hs v) (fun ns => ih k' (Nat.le_of_succ_le_succ hk) _ _)

/-- Optional computations. -/
inductive LastsOpt : Option (Comp P X W α) → Option (Comp P X W α) → Prop
  | none : LastsOpt .none .none
  | some {c c'} : Lasts c c' → LastsOpt (.some c) (.some c')

theorem loopResult_lasts (r : List Ref × Bool) {e e' : Option (Comp P X W (List Ref))} (h : LastsOpt e e') :
    Lasts (loopResult r e) (loopResult r e') := by
  obtain ⟨ns, b⟩ := r
  cases h with
  | none => cases b <;> exact Lasts.pure _
  | some h =>
    cases b with
    | true => exact h
    | false => exact Lasts.pure _

theorem optBranch_lasts {e e' : Option (Comp P X W (List Ref))} (h : LastsOpt e e') : Lasts (optBranch e) (optBranch e') := by
  cases h with
  | none => exact Lasts.pure _
  | some h => exact h

theorem requiredBranch_lasts {e e' : Option (Comp P X W (List Ref))} (h : LastsOpt e e') : Lasts (requiredBranch e) (requiredBranch e') := by
  cases h with
  | none => exact Lasts.raise _
  | some h => exact h

/-- Lists of computations. -/
abbrev LastsAll (cs cs' : List (Comp P X W (List Ref))) : Prop := List.Forall₂ Lasts cs cs'

theorem tryLoop_lasts {cs cs' : List (Comp P X W (List Ref))} (h : LastsAll cs cs') : Lasts (tryLoop cs) (tryLoop cs') := by
  induction h with
  | nil => exact Lasts.pure _
  | cons h _ ih => exact Lasts.tryExcept h ih

theorem head_lasts {cs cs' : List (Comp P X W (List Ref))} (h : LastsAll cs cs') : LastsOpt cs.head? cs'.head? := by
  cases h with
  | nil => exact .none
  | cons h _ => exact .some h

theorem last_lasts {cs cs' : List (Comp P X W (List Ref))} (h : LastsAll cs cs') : LastsOpt cs.getLast? cs'.getLast? := by
  induction h with
  | nil => exact .none
  | cons h t ih =>
    cases t with
    | nil => exact .some h
    | cons _ _ => simpa only [List.getLast?_cons_cons] using ih

theorem lastElse_lasts {ss : List (Stmt P)} {cs cs' : List (Comp P X W (List Ref))} (h : LastsAll cs cs') :
    LastsOpt (lastElse ss cs) (lastElse ss cs') := by
  unfold lastElse
  split
  · exact last_lasts h
  · exact .none

section
variable {E E' : Env P X W} (hE : LastsEnv E E')
include hE

theorem renderLine_lasts (σ : StateId) (l : Line) : Lasts (renderLine E σ l) (renderLine E' σ l) := by
  cases l with
  | verbat s => exact Lasts.pure _
  | markup ps => exact evalStrs_lasts hE σ ps
  | normal ps =>
    simp only [renderLine, hE.ops]
    refine Lasts.bind (evalStrs_lasts hE σ ps) (fun t => ?_)
    cases E'.ops.escape with
    | none => exact Lasts.pure _
    | some g => exact hE.runPy _

theorem renderItems_lasts (σ : StateId) (items : List TextItem) :
    Lasts (renderItems E σ items) (renderItems E' σ items) := by
  induction items with
  | nil => exact Lasts.pure _
  | cons i is ih =>
    refine Lasts.bind ?_ (fun s => Lasts.bind ih (fun _ => Lasts.pure _))
    cases i with
    | line l => exact Lasts.bind (.refl _) (fun _ => Lasts.bind (renderLine_lasts hE σ l) (fun _ => Lasts.pure _))
    | margin s => exact Lasts.pure _
    | indent c => exact Lasts.bind (.refl _) (fun _ => Lasts.pure _)
    | dedent c => exact Lasts.bind (.refl _) (fun _ => Lasts.pure _)

theorem renderText_lasts (σ : StateId) (lead : Nat) (items : List TextItem) :
    Lasts (renderText E σ lead items) (renderText E' σ lead items) :=
  Lasts.bind (Lasts.keepIndent σ (Lasts.bind (.refl _) (fun _ => renderItems_lasts hE σ items))) (fun _ => Lasts.pure _)

theorem unpackEnd_lasts (it : Val P) : Lasts (unpackEnd E it) (unpackEnd E' it) := by
  unfold unpackEnd
  rw [hE.ops]
  refine Lasts.bind (hE.runPy _) (fun o => ?_)
  cases o with
  | none => exact Lasts.pure _
  | some v => exact Lasts.raise _

mutual
theorem assignTarget_lasts (σ : StateId) : ∀ (t : Target) (v : Val P), Lasts (assignTarget E σ t v) (assignTarget E' σ t v)
  | .var _ _ _ none, v => by simp only [assignTarget]; exact Lasts.raise _
  | .var _ _ _ (some sl), v => by simp only [assignTarget]; exact Lasts.refl _
  | .many [], v => by
    simp only [assignTarget, hE.ops]
    exact Lasts.bind (hE.runPy _) (fun it => by simp only [unpackTargets]; exact unpackEnd_lasts hE it)
  | .many [t], v => by
    simp only [assignTarget]
    exact assignTarget_lasts σ t v
  | .many (t1 :: t2 :: ts), v => by
    have ih : ∀ it, _ := fun it => unpackTargets_lasts σ (t1 :: t2 :: ts) it
    have ha : ∀ E : Env P X W, assignTarget E σ (.many (t1 :: t2 :: ts)) v =
        (runPy E (E.ops.iter v) >>= fun it => unpackTargets E σ (t1 :: t2 :: ts) it) := by
      intro E
      rw [assignTarget]; simp
    rw [ha, ha, hE.ops]
    exact Lasts.bind (hE.runPy _) ih
theorem unpackTargets_lasts (σ : StateId) : ∀ (ts : List Target) (it : Val P),
    Lasts (unpackTargets E σ ts it) (unpackTargets E' σ ts it)
  | [], it => by simp only [unpackTargets]; exact unpackEnd_lasts hE it
  | t :: ts, it => by
    simp only [unpackTargets, hE.ops]
    refine Lasts.bind (hE.runPy _) (fun o => ?_)
    cases o with
    | none => exact Lasts.raise _
    | some v => exact Lasts.bind (assignTarget_lasts σ t v) (fun _ => unpackTargets_lasts σ ts it)
end

theorem evalNamed_lasts (σ : StateId) (l : List (Str × Expr)) (d : Dict Str (Val P)) :
    Lasts (evalNamed E σ l d) (evalNamed E' σ l d) := by
  induction l generalizing d with
  | nil => exact Lasts.pure _
  | cons a l ih =>
    obtain ⟨n, e⟩ := a
    simp only [evalNamed]
    refine Lasts.bind (eval_lasts hE σ e) (fun v => ?_)
    cases Dict.get? d n with
    | none => exact ih _
    | some old => exact Lasts.bind (binOp_lasts hE _ _ _) (fun _ => Lasts.bind (binOp_lasts hE _ _ _) (fun _ => ih _))

theorem applyTagValue_lasts (σ : StateId) (v : Val P) (body : List Ref) (as : List (Val P)) (kw : Dict Str (Val P)) :
    Lasts (applyTagValue E σ v body as kw) (applyTagValue E' σ v body as kw) := by
  cases v with
  | hyper h => exact hE.expand _ _ _ _ _
  | py q =>
    simp only [applyTagValue, hE.ops]
    exact Lasts.ite (Lasts.bind (.refl _) (fun _ => Lasts.pure _)) (Lasts.raise _)
  | _ => exact Lasts.raise _

theorem translTag_lasts (σ : StateId) (t : TagExp) (body : List Ref) : Lasts (translTag E σ t body) (translTag E' σ t body) := by
  cases t with
  | tag n slot us ns =>
    exact Lasts.bind (evalList_lasts hE σ us) (fun _ => Lasts.bind (evalNamed_lasts hE σ ns []) (fun _ =>
      Lasts.bind (.refl _) (fun v => applyTagValue_lasts hE σ v body _ _)))
  | null => exact Lasts.bind (.refl _) (fun _ => Lasts.pure _)

theorem applyTags_lasts (σ : StateId) (ts : List TagExp) (body : List Ref) :
    Lasts (applyTags E σ ts body) (applyTags E' σ ts body) := by
  induction ts generalizing body with
  | nil => exact Lasts.pure _
  | cons t ts ih => exact Lasts.bind (translTag_lasts hE σ t body) (fun b => ih b)

theorem flattenVals_lasts (vs : List (Val P)) : Lasts (flattenVals E vs) (flattenVals E' vs) := by
  induction vs with
  | nil => exact Lasts.pure _
  | cons v vs ih =>
    refine Lasts.bind ?_ (fun _ => Lasts.bind ih (fun _ => Lasts.pure _))
    cases v <;> simp only [flattenVal, hE.ops] <;> first | exact Lasts.pure _ | exact hE.runPy _ | exact Lasts.raise _

theorem asSequence_lasts (v : Val P) : Lasts (asSequence E v) (asSequence E' v) := by
  cases v <;> simp only [asSequence, hE.ops] <;> first
    | exact Lasts.pure _
    | exact Lasts.bind (Lasts.tryExcept (hE.runPy _) (Lasts.raise _)) (fun vs => flattenVals_lasts hE vs)

theorem inplace_lasts (σ : StateId) (t : Target) (op : Option Str) (v : Val P) : Lasts (inplace E σ t op v) (inplace E' σ t op v) := by
  cases op with
  | none => exact Lasts.pure _
  | some o => exact Lasts.bind (.refl _) (fun c => binOp_lasts hE _ _ _)

/-! ### Statements -/

mutual
theorem transl_lasts (σ : StateId) : ∀ s : Stmt P, Lasts (transl E σ s) (transl E' σ s)
  | .static s => by
    simp only [transl]; exact Lasts.bind (.refl _) (fun _ => Lasts.pure _)
  | .indent c => by
    simp only [transl]; exact Lasts.bind (.refl _) (fun _ => Lasts.pure _)
  | .dedent c => by
    simp only [transl]; exact Lasts.bind (.refl _) (fun _ => Lasts.pure _)
  | .line l => by
    simp only [transl]
    exact Lasts.bind (renderLine_lasts hE σ l) (fun _ => Lasts.bind (.refl _) (fun _ => Lasts.pure _))
  | .xblock m mo b => by
    simp only [transl]
    exact Lasts.bind (.refl _) (fun _ => Lasts.bind (transl_lasts σ b)
      (fun _ => Lasts.bind (.refl _) (fun _ => Lasts.pure _)))
  | .text lead items => by
    simp only [transl]
    exact Lasts.bind (renderText_lasts hE σ lead items) (fun _ => Lasts.bind (.refl _) (fun _ =>
      Lasts.bind (.refl _) (fun _ => Lasts.pure _)))
  | .comment => by simp only [transl]; exact Lasts.pure _
  | .embed e => by
    simp only [transl]
    exact Lasts.bind (eval_lasts hE σ e) (fun v => Lasts.bind (asSequence_lasts hE v) (fun ns => Lasts.refl _))
  | .struct tags b => by
    simp only [transl]
    exact Lasts.bind (transl_lasts σ b) (fun _ => Lasts.bind (applyTags_lasts hE σ _ _) (fun ns => Lasts.refl _))
  | .defn id n none _ _ _ => by
    simp only [transl]; exact Lasts.raise _
  | .defn id n (some sl) _ _ _ => by
    simp only [transl]
    exact Lasts.bind (Lasts.refl _) (fun _ => Lasts.pure _)
  | .imports c path items => by
    simp only [transl]
    exact Lasts.bind (.refl _) (fun _ => Lasts.pure _)
  | .tryBlock bs => by
    simp only [transl]
    exact Lasts.bind (tryLoop_lasts (translEach_lasts σ bs)) (fun ns => Lasts.refl _)
  | .ifBlock cs els => by
    simp only [transl]
    exact Lasts.bind (translIf_lasts σ cs _ _ (translOpt_lasts σ els)) (fun ns => Lasts.refl _)
  | .elseClause b => by
    simp only [transl]
    exact Lasts.bind (requiredBranch_lasts (translOpt_lasts σ b)) (fun _ => Lasts.pure _)
  | .whileBlock t b els => by
    simp only [transl]
    exact Lasts.bind (whileLoop_lasts (Lasts.bind (eval_lasts hE σ t) (fun v => truthOf_lasts hE v)) (optBranch_lasts (translOpt_lasts σ b)) _ _ hE.fuel _ _)
      (fun r => Lasts.bind (loopResult_lasts r (translOpt_lasts σ els)) (fun ns => Lasts.refl _))
  | .forBlock t e rest => by
    simp only [transl, hE.ops]
    have hr := translEach_lasts σ rest
    exact Lasts.bind (eval_lasts hE σ e) (fun seq => Lasts.bind (hE.runPy _) (fun it => Lasts.bind
      (forLoop_lasts (hE.runPy _) (fun v => Lasts.bind (assignTarget_lasts hE σ t v) (fun _ => optBranch_lasts (head_lasts hr))) _ _ hE.fuel _ _)
      (fun r => Lasts.bind (loopResult_lasts r (lastElse_lasts hr)) (fun ns => Lasts.refl _))))
  | .exprBlock e => by
    simp only [transl]; exact Lasts.bind (eval_lasts hE σ e) (fun _ => Lasts.pure _)
  | .assign t op e => by
    simp only [transl]
    exact Lasts.bind (eval_lasts hE σ e) (fun v => Lasts.bind (inplace_lasts hE σ t op v) (fun v => Lasts.bind
      (assignTarget_lasts hE σ t v) (fun _ => Lasts.pure _)))
  | .body ss => by
    simp only [transl]
    exact Lasts.bind (Lasts.keepIndent σ (translAll_lasts σ ss)) (fun _ => Lasts.pure _)
  | .pass => by simp only [transl]; exact Lasts.pure _
theorem translAll_lasts (σ : StateId) : ∀ ss : List (Stmt P), Lasts (translAll E σ ss) (translAll E' σ ss)
  | [] => by simp only [translAll]; exact Lasts.pure _
  | s :: ss => by
    simp only [translAll]
    exact Lasts.bind (transl_lasts σ s) (fun _ => Lasts.bind (translAll_lasts σ ss) (fun _ => Lasts.pure _))
theorem translEach_lasts (σ : StateId) : ∀ ss : List (Stmt P),
    LastsAll (translEach E σ ss) (translEach E' σ ss)
  | [] => by simp only [translEach]; exact .nil
  | s :: ss => by
    simp only [translEach]
    exact .cons (Lasts.bind (transl_lasts σ s) (fun _ => Lasts.pure _)) (translEach_lasts σ ss)
theorem translIf_lasts (σ : StateId) : ∀ cs : List (Expr × Option (Stmt P)),
    ∀ els els' : Option (Comp P X W (List Ref)), LastsOpt els els' → Lasts (translIf E σ cs els) (translIf E' σ cs els')
  | [], els, els', h => by simp only [translIf]; exact optBranch_lasts h
  | (t, b) :: cs, els, els', h => by
    simp only [translIf, translBranch]
    exact Lasts.bind (eval_lasts hE σ t) (fun v => Lasts.bind (truthOf_lasts hE v) (fun c => Lasts.ite
      (optBranch_lasts (translOpt_lasts σ b)) (translIf_lasts σ cs els els' h)))
theorem translOpt_lasts (σ : StateId) : ∀ o : Option (Stmt P), LastsOpt (translOpt E σ o) (translOpt E' σ o)
  | .none => by simp only [translOpt]; exact .none
  | some s => by
    simp only [translOpt]
    exact .some (Lasts.bind (transl_lasts σ s) (fun _ => Lasts.pure _))
end

/-! ### Hypertags -/

theorem bindDefaults_lasts (σ : StateId) (as : List AttrDef) : ∀ d : Dict Str (Val P),
    Lasts (bindDefaults E σ as d) (bindDefaults E' σ as d) := by
  induction as with
  | nil => exact fun d => Lasts.pure _
  | cons a as ih =>
    intro d
    obtain ⟨n, e, s⟩ := a
    cases e with
    | none => simp only [bindDefaults]; exact Lasts.ite (ih d) (Lasts.raise _)
    | some e =>
      simp only [bindDefaults]
      exact Lasts.ite (ih d) (Lasts.bind (eval_lasts hE σ e) (fun v => ih _))

theorem assignBody_lasts (σ : StateId) (a : Option AttrDef) (b : Val P) :
    Lasts (assignBody E σ a b) (assignBody E' σ a b) := by
  cases a with
  | none => exact Lasts.bind (truthOf_lasts hE b) (fun c => Lasts.ite (Lasts.raise _) (Lasts.pure _))
  | some a => exact Lasts.refl _

theorem appendAttrs_lasts (σ : StateId) (d : DefInfo P) (b : Val P) (vs : List (Val P)) (kw : Dict Str (Val P)) :
    Lasts (appendAttrs E σ d b vs kw) (appendAttrs E' σ d b vs kw) := by
  unfold appendAttrs
  refine Lasts.ite (Lasts.raise _) (Lasts.ite (Lasts.raise _) (Lasts.ite (Lasts.raise _) ?_))
  cases bindPositional d.attrs vs kw with
  | none => exact Lasts.raise _
  | some kw1 =>
    exact Lasts.bind (bindDefaults_lasts hE σ d.attrs kw1) (fun kw2 => Lasts.bind (.refl _) (fun _ =>
      Lasts.bind (assignBody_lasts hE σ d.bodyAttr b) (fun _ => Lasts.pure _)))

theorem expandDef_lasts (id : DefId) (d : DefInfo P) (b : Val P) (vs : List (Val P)) (kw : Dict Str (Val P)) (σ : StateId) :
    Lasts (expandDef E id d b vs kw σ) (expandDef E' id d b vs kw σ) :=
  Lasts.bind (appendAttrs_lasts hE σ d b vs kw) (fun _ => Lasts.bind (transl_lasts hE σ d.body) (fun _ =>
    Lasts.bind (.refl _) (fun _ => Lasts.bind (.refl _) (fun _ => Lasts.bind (.refl _) (fun _ =>
      Lasts.bind (.refl _) (fun _ => Lasts.pure _))))))

theorem expandHyper_lasts (Γ : DefId → DefInfo P) :
    ∀ (h : HVal) (b : Val P) (vs : List (Val P)) (kw : Dict Str (Val P)) (σ : StateId),
      Lasts (expandHyper E Γ h b vs kw σ) (expandHyper E' Γ h b vs kw σ)
  | .imported h st, b, vs, kw, σ => by simp only [expandHyper]; exact expandHyper_lasts Γ h b vs kw st
  | .defn id, b, vs, kw, σ => by
    simp only [expandHyper]
    exact expandDef_lasts hE id (Γ id) b vs kw σ

theorem embeddedBody_lasts (v : Val P) : Lasts (embeddedBody E v) (embeddedBody E' v) := by
  cases v <;> simp only [embeddedBody] <;> first
    | exact Lasts.pure _
    | exact Lasts.bind (strOf_lasts hE _) (fun s => Lasts.bind (.refl _) (fun _ => Lasts.pure _))

theorem callEmbedded_lasts (c : Callback P) : Lasts (callEmbedded E c) (callEmbedded E' c) := by
  unfold callEmbedded
  rw [hE.ops]
  exact Lasts.bind (embeddedBody_lasts hE _) (fun b => Lasts.bind (hE.expand _ _ _ _ _) (fun dom => Lasts.bind (.refl _) (fun _ =>
    Lasts.bind (hE.runPy _) (fun _ => Lasts.pure _))))

end

theorem envAt_lasts (ops : PyOps P X W) (Γ : DefId → DefInfo P) : ∀ n m, n ≤ m → LastsEnv (envAt ops Γ n) (envAt ops Γ m) := by
  intro n
  induction n with
  | zero =>
    intro m _
    have ho : ∀ k, (envAt ops Γ k).ops = ops := by
      intro k
      cases k <;> simp only [envAt]
    refine ⟨by rw [ho, ho], ?_, ?_, ?_⟩
    · simp only [envAt]; exact Nat.zero_le _
    · intro _ _ _ _ _
      simp only [envAt]; exact Lasts.timeout _
    · intro _
      simp only [envAt]; exact Lasts.timeout _
  | succ n ih =>
    intro m h
    cases m with
    | zero => exact absurd h (Nat.not_succ_le_zero n)
    | succ m =>
      have ih := ih m (Nat.le_of_succ_le_succ h)
      simp only [envAt]
      exact ⟨rfl, h, expandHyper_lasts ih Γ, callEmbedded_lasts ih⟩

theorem translDocument_lasts {E E' : Env P X W} (hE : LastsEnv E E') (σ : StateId) (doc : Document P) :
    Lasts (translDocument E σ doc) (translDocument E' σ doc) :=
  Lasts.bind (.refl _) (fun _ => Lasts.bind (translAll_lasts hE σ _) (fun _ => .refl _))

end
end Verif
