import Verif.Spec.Reslot
import Verif.Lemmas.TransFrame
import Verif.Lemmas.Comp

/-! Translation of scripts that have other slots, in states that have the same values there. -/

set_option linter.unusedSectionVars false

namespace Verif
open Py

section
variable {P X W α β : Type} {f : Slot → Slot}

/-- The same memory and indentation; what one machine has in a slot, the other has in the slot that corresponds to it. -/
structure Machine.Corr (f : Slot → Slot) (M M' : Machine P W) : Prop where
  mem : M.mem = M'.mem
  ind : ∀ τ, (M.states τ).indentation = (M'.states τ).indentation
  val : ∀ τ s, (M.states τ).values s = (M'.states τ).values (f s)

/-- The same outcomes on corresponding machines. -/
def Sim (f : Slot → Slot) (c c' : Comp P X W α) : Prop :=
  ∀ M M', Machine.Corr f M M' → (c M).1 = (c' M').1 ∧ Machine.Corr f (c M).2 (c' M').2

/-- No other slot corresponds to the same one. -/
def Own (f : Slot → Slot) (o : Option Slot) : Prop := ∀ sl, o = some sl → ∀ s, f s = f sl → s = sl

/-- Environments that do the same. -/
structure SimEnv (f : Slot → Slot) (E E' : Env P X W) : Prop where
  ops : E.ops = E'.ops
  fuel : E.fuel = E'.fuel
  expand : ∀ h b as kw σ, Sim f (E.expand h b as kw σ) (E'.expand h b as kw σ)
  call : ∀ c, Sim f (E.call c) (E'.call c)

namespace Sim

theorem pure (a : α) : Sim f (Pure.pure a : Comp P X W α) (Pure.pure a) := fun _ _ h => ⟨rfl, h⟩
theorem raise (e : Exn X) : Sim f (Comp.raise e : Comp P X W α) (Comp.raise e) := fun _ _ h => ⟨rfl, h⟩
theorem timeout : Sim f (Comp.timeout : Comp P X W α) Comp.timeout := fun _ _ h => ⟨rfl, h⟩

theorem bind {c c' : Comp P X W α} {g g' : α → Comp P X W β} (h : Sim f c c') (hg : ∀ a, Sim f (g a) (g' a)) :
    Sim f (c >>= g) (c' >>= g') := by
  intro M M' hM
  obtain ⟨h1, h2⟩ := h M M' hM
  rw [Comp.bind_run, Comp.bind_run]
  generalize c M = x at h1 h2 ⊢
  generalize c' M' = y at h1 h2 ⊢
  obtain ⟨r, N⟩ := x
  obtain ⟨r', N'⟩ := y
  have h1 : r = r' := h1
  subst h1
  cases r with
  | ok a => exact hg a N N' h2
  | raise e => exact ⟨rfl, h2⟩
  | timeout => exact ⟨rfl, h2⟩

theorem tryExcept {c c' h h' : Comp P X W α} (hc : Sim f c c') (hh : Sim f h h') :
    Sim f (Comp.tryExcept c h) (Comp.tryExcept c' h') := by
  intro M M' hM
  obtain ⟨h1, h2⟩ := hc M M' hM
  unfold Comp.tryExcept
  generalize c M = x at h1 h2 ⊢
  generalize c' M' = y at h1 h2 ⊢
  obtain ⟨r, N⟩ := x
  obtain ⟨r', N'⟩ := y
  have h1 : r = r' := h1
  subst h1
  cases r with
  | ok a => exact ⟨rfl, h2⟩
  | timeout => exact ⟨rfl, h2⟩
  | raise e =>
    simp only [Comp.handle]
    split
    · exact hh N N' h2
    · exact ⟨rfl, h2⟩

theorem ite {p : Prop} [Decidable p] {c d c' d' : Comp P X W α} (hc : Sim f c c') (hd : Sim f d d') :
    Sim f (if p then c else d) (if p then c' else d') := by
  split
  · exact hc
  · exact hd

theorem getSlot (σ : StateId) (sl : Slot) : Sim f (getSlot σ sl : Comp P X W _) (Verif.getSlot σ (f sl)) :=
  fun _ _ h => ⟨congrArg Res.ok (h.val σ sl), h⟩

theorem setSlot (σ : StateId) (sl : Slot) (v : Val P) (w : Own f (some sl)) :
    Sim f (setSlot σ sl v : Comp P X W _) (Verif.setSlot σ (f sl) v) := by
  intro M M' h
  refine ⟨rfl, h.mem, fun τ => ?_, fun τ s => ?_⟩
  · simp only [Verif.setSlot, Machine.updState]
    split <;> exact h.ind τ
  · simp only [Verif.setSlot, Machine.updState]
    split
    · simp only
      by_cases e : s = sl
      · rw [if_pos e, if_pos (by rw [e])]
      · rw [if_neg e, if_neg (fun e' => e (w sl rfl s e'))]
        exact h.val τ s
    · exact h.val τ s

theorem curIndent (σ : StateId) : Sim f (curIndent σ : Comp P X W _) (Verif.curIndent σ) :=
  fun _ _ h => ⟨congrArg Res.ok (h.ind σ), h⟩

theorem upd {M M' : Machine P W} (h : Machine.Corr f M M') (σ : StateId) (ind : Str) :
    Machine.Corr f (M.updState σ (fun s => { s with indentation := ind })) (M'.updState σ (fun s => { s with indentation := ind })) := by
  refine ⟨h.mem, fun τ => ?_, fun τ s => ?_⟩
  · simp only [Machine.updState]
    split
    · rfl
    · exact h.ind τ
  · simp only [Machine.updState]
    split <;> exact h.val τ s

theorem putIndent (σ : StateId) (ind : Str) : Sim f (putIndent σ ind : Comp P X W _) (Verif.putIndent σ ind) :=
  fun _ _ h => ⟨rfl, upd h σ ind⟩

theorem keepIndent (σ : StateId) {c c' : Comp P X W α} (hc : Sim f c c') : Sim f (keepIndent σ c) (Verif.keepIndent σ c') := by
  intro M M' h
  obtain ⟨h1, h2⟩ := hc M M' h
  refine ⟨h1, ?_⟩
  simp only [Verif.keepIndent, restoring]
  rw [h.ind σ]
  exact upd h2 σ _

theorem readNode (r : Ref) : Sim f (readNode r : Comp P X W _) (Verif.readNode r) :=
  fun M M' h => ⟨by simp only [Verif.readNode, h.mem], h⟩
theorem countNodes : Sim f (countNodes : Comp P X W _) Verif.countNodes :=
  fun M M' h => ⟨by simp only [Verif.countNodes, h.mem], h⟩
theorem writeNode (r : Ref) (n : DNode P) : Sim f (writeNode r n : Comp P X W _) (Verif.writeNode r n) :=
  fun M M' h => ⟨rfl, by simp only [Verif.writeNode, h.mem], h.ind, h.val⟩
theorem allocNode (n : DNode P) : Sim f (allocNode n : Comp P X W _) (Verif.allocNode n) :=
  fun M M' h => ⟨by simp only [Verif.allocNode, h.mem], by simp only [Verif.allocNode, h.mem], h.ind, h.val⟩

theorem runProc {cb cb' : Callback P → Comp P X W (Val P)} (hcb : ∀ c, Sim f (cb c) (cb' c)) (p : Proc P X W α) :
    ∀ st st', (∀ m, Machine.Corr f ⟨st, m⟩ (⟨st', m⟩ : Machine P W)) →
      (runProc cb p st).1 = (Verif.runProc cb' p st').1 ∧ Machine.Corr f (runProc cb p st).2 (Verif.runProc cb' p st').2 := by
  induction p with
  | ret a m => exact fun st st' h => ⟨rfl, h m⟩
  | raise e m => exact fun st st' h => ⟨rfl, h m⟩
  | call c m k ih =>
    intro st st' h
    obtain ⟨h1, h2⟩ := hcb c _ _ (h m)
    simp only [Verif.runProc]
    generalize cb c ⟨st, m⟩ = x at h1 h2 ⊢
    generalize cb' c ⟨st', m⟩ = y at h1 h2 ⊢
    obtain ⟨r, N⟩ := x
    obtain ⟨r', N'⟩ := y
    have h1 : r = r' := h1
    subst h1
    have hst : ∀ m, Machine.Corr f ⟨N.states, m⟩ (⟨N'.states, m⟩ : Machine P W) := fun m => ⟨rfl, h2.ind, h2.val⟩
    have hm : N'.mem = N.mem := h2.mem.symm
    cases r with
    | ok v => simp only [hm]; exact ih _ _ _ _ hst
    | raise e => simp only [hm]; exact ih _ _ _ _ hst
    | timeout => exact ⟨rfl, h2⟩

end Sim

section
variable {E E' : Env P X W} (hE : SimEnv f E E')
include hE

theorem SimEnv.runPy (c : PyM P X W α) : Sim f (runPy E c) (Verif.runPy E' c) := by
  intro M M' h
  unfold Verif.runPy
  rw [h.mem]
  exact Sim.runProc hE.call _ _ _ (fun m => ⟨rfl, h.ind, h.val⟩)

end

/-! ### Nodes -/

/-- Nodes are of no relevance to slots. -/
theorem Sim.closed (f : Slot → Slot) (ops : PyOps P X W) :
    Closed { ops := ops, expand := fun _ _ _ _ _ => Comp.timeout, call := fun _ => Comp.timeout, fuel := 0 }
      (fun α c => Sim (α := α) f c c) (fun _ o => o = none) where
  pure := Sim.pure
  raise e _ := Sim.raise e
  unres _ := Sim.raise _
  timeout := Sim.timeout
  bind h hf := Sim.bind h hf
  tryExcept h hh := Sim.tryExcept h hh
  qual q c hc hv := by
    intro M M' h
    obtain ⟨h1, h2⟩ := hc M M' h
    unfold qualified
    generalize c M = x at h1 h2 ⊢
    generalize c M' = y at h1 h2 ⊢
    obtain ⟨r, N⟩ := x
    obtain ⟨r', N'⟩ := y
    have h1 : r = r' := h1
    subst h1
    cases r with
    | ok v => exact hv v N N' h2
    | raise e =>
      simp only [qualStep]
      split
      · exact ⟨rfl, h2⟩
      · exact ⟨rfl, h2⟩
    | timeout => exact ⟨rfl, h2⟩
  py _ := SimEnv.runPy ⟨rfl, rfl, fun _ _ _ _ _ => Sim.timeout, fun _ => Sim.timeout⟩ _
  call _ := Sim.timeout
  getSlot _ _ h := by cases h
  curIndent := Sim.curIndent
  readNode := Sim.readNode
  countNodes := Sim.countNodes
  writeNode := Sim.writeNode
  allocNode := Sim.allocNode

/-! ### Expressions -/

section
variable {E E' : Env P X W} (hE : SimEnv f E E')
include hE

theorem qualStep_sim (q : Option Qual) (hv : ∀ v, Sim f (qualCheck E q v) (qualCheck E' q v)) {c c' : Comp P X W (Val P)} (hc : Sim f c c') :
    Sim f (qualified E q c) (qualified E' q c') := by
  intro M M' h
  obtain ⟨h1, h2⟩ := hc M M' h
  unfold qualified
  generalize c M = x at h1 h2 ⊢
  generalize c' M' = y at h1 h2 ⊢
  obtain ⟨r, N⟩ := x
  obtain ⟨r', N'⟩ := y
  have h1 : r = r' := h1
  subst h1
  cases r with
  | ok v => exact hv v N N' h2
  | raise e =>
    simp only [qualStep]
    split
    · exact ⟨rfl, h2⟩
    · exact ⟨rfl, h2⟩
  | timeout => exact ⟨rfl, h2⟩

theorem truthOf_sim (v : Val P) : Sim f (truthOf E v) (truthOf E' v) := by
  cases v <;> simp only [truthOf, hE.ops] <;> first | exact hE.runPy _ | exact Sim.pure _

theorem strOf_sim (v : Val P) : Sim f (strOf E v) (strOf E' v) := by
  cases v <;> simp only [strOf, hE.ops] <;> first | exact hE.runPy _ | exact Sim.pure _

theorem STR_sim (v : Val P) : Sim f (STR E v) (STR E' v) := by
  cases v <;> simp only [STR] <;> first | exact strOf_sim hE _ | exact Sim.raise _

theorem binOp_sim (op : Str) (a b : Val P) : Sim f (binOp E op a b) (binOp E' op a b) := by
  unfold Verif.binOp
  rw [hE.ops]
  split
  · exact Sim.pure _
  · exact Sim.pure _
  · exact hE.runPy _

theorem callVal_sim : ∀ (g : Val P) (args : List (Val P)) (kw : List (Str × Val P)), Sim f (callVal E g args kw) (callVal E' g args kw)
  | .embedded h st, args, kw => by
    simp only [callVal]
    cases embeddedArgs args kw with
    | none => exact Sim.raise _
    | some t => exact hE.call _
  | .part g as k, args, [] => by simp only [callVal]; exact callVal_sim g _ _
  | .part g as k, args, a :: b => by simp only [callVal]; exact Sim.raise _
  | .py p, args, kw => by simp only [callVal, hE.ops]; exact hE.runPy _
  | .none, args, kw => by simp only [callVal, hE.ops]; exact hE.runPy _
  | .bool _, args, kw => by simp only [callVal, hE.ops]; exact hE.runPy _
  | .str _, args, kw => by simp only [callVal, hE.ops]; exact hE.runPy _
  | .dom _, args, kw => by simp only [callVal, hE.ops]; exact hE.runPy _
  | .node _, args, kw => by simp only [callVal, hE.ops]; exact hE.runPy _
  | .hyper _, args, kw => by simp only [callVal, hE.ops]; exact hE.runPy _

theorem qualCheck_sim (q : Option Qual) (v : Val P) : Sim f (qualCheck E q v) (qualCheck E' q v) := by
  refine Sim.bind (truthOf_sim hE v) (fun b => Sim.ite (Sim.pure _) ?_)
  cases q with
  | none => exact Sim.pure _
  | some q =>
    cases q with
    | opt => exact Sim.pure _
    | obl => simp only [hE.ops]; exact Sim.bind (hE.runPy _) (fun _ => Sim.raise _)

theorem qualified_sim (q : Option Qual) {c c' : Comp P X W (Val P)} (hc : Sim f c c') : Sim f (qualified E q c) (qualified E' q c') :=
  qualStep_sim hE q (qualCheck_sim hE q) hc

omit hE in
theorem readName_sim (σ : StateId) (slot : Option Slot) : Sim f (readName σ slot : Comp P X W _) (readName σ (slot.map f)) := by
  cases slot with
  | none => exact Sim.raise _
  | some sl =>
    refine Sim.bind (Sim.getSlot σ sl) (fun o => ?_)
    cases o with
    | none => exact Sim.raise _
    | some v => exact Sim.pure _

theorem negate_sim (v : Val P) : Sim f (negate E v) (negate E' v) := by
  cases v <;> simp only [negate, hE.ops] <;> first | exact hE.runPy _ | exact Sim.pure _

mutual
theorem eval_sim (σ : StateId) : ∀ e : Expr, Sim f (eval E σ e) (eval E' σ (e.reslot f))
  | .root q e => by
    simp only [Expr.reslot, eval]; exact qualified_sim hE q (eval_sim σ e)
  | .tagUse _ slot => by
    simp only [Expr.reslot, eval]; exact Sim.bind (readName_sim σ slot) (fun _ => Sim.pure _)
  | .varUse _ slot => by
    simp only [Expr.reslot, eval]; exact readName_sim σ slot
  | .factor a ts q => by
    simp only [Expr.reslot, eval]
    exact qualified_sim hE q (Sim.bind (eval_sim σ a) (fun v => applyTails_sim σ ts v))
  | .chain neg a ops es => by
    simp only [Expr.reslot, eval]
    exact Sim.bind (eval_sim σ a) (fun v => Sim.ite
      (Sim.bind (negate_sim hE v) (fun w => evalChain_sim σ ops es w))
      (Sim.bind (Sim.pure v) (fun w => evalChain_sim σ ops es w)))
  | .concat es => by
    simp only [Expr.reslot, eval]; exact Sim.bind (evalStrs_sim σ es) (fun _ => Sim.pure _)
  | .bits op a es => by
    simp only [Expr.reslot, eval]; exact Sim.bind (eval_sim σ a) (fun v => evalBits_sim σ op es v)
  | .pipeline a es => by
    simp only [Expr.reslot, eval]; exact Sim.bind (eval_sim σ a) (fun v => evalPipe_sim σ es v)
  | .notTest n e => by
    simp only [Expr.reslot, eval]
    exact Sim.bind (eval_sim σ e) (fun v => Sim.ite (Sim.bind (truthOf_sim hE v) (fun _ => Sim.pure _)) (Sim.pure _))
  | .andTest a es => by
    simp only [Expr.reslot, eval]; exact Sim.bind (eval_sim σ a) (fun v => evalAnd_sim σ es v)
  | .orTest a es => by
    simp only [Expr.reslot, eval]; exact Sim.bind (eval_sim σ a) (fun v => evalOr_sim σ es v)
  | .ifElse x t none => by
    simp only [Expr.reslot, Expr.reslotOpt, eval]
    exact Sim.bind (eval_sim σ t) (fun v => Sim.bind (truthOf_sim hE v) (fun b => Sim.ite (eval_sim σ x) (Sim.pure _)))
  | .ifElse x t (some y) => by
    simp only [Expr.reslot, Expr.reslotOpt, eval]
    exact Sim.bind (eval_sim σ t) (fun v => Sim.bind (truthOf_sim hE v) (fun b => Sim.ite (eval_sim σ x) (eval_sim σ y)))
  | .list es => by
    simp only [Expr.reslot, eval, hE.ops]; exact Sim.bind (evalList_sim σ es) (fun _ => hE.runPy _)
  | .tuple es => by
    simp only [Expr.reslot, eval, hE.ops]; exact Sim.bind (evalList_sim σ es) (fun _ => hE.runPy _)
  | .set es => by
    simp only [Expr.reslot, eval, hE.ops]; exact Sim.bind (evalList_sim σ es) (fun _ => hE.runPy _)
  | .dict es => by
    simp only [Expr.reslot, eval, hE.ops]; exact Sim.bind (evalList_sim σ es) (fun _ => hE.runPy _)
  | .format es => by
    simp only [Expr.reslot, eval]; exact Sim.bind (evalStrs_sim σ es) (fun _ => Sim.pure _)
  | .static _ => by simp only [Expr.reslot, eval]; exact Sim.pure _
  | .strLit _ => by simp only [Expr.reslot, eval]; exact Sim.pure _
  | .number _ => by simp only [Expr.reslot, eval, hE.ops]; exact Sim.pure _
  | .boolean _ => by simp only [Expr.reslot, eval]; exact Sim.pure _
  | .noneLit => by simp only [Expr.reslot, eval]; exact Sim.pure _
  | .sliceNone => by simp only [Expr.reslot, eval]; exact Sim.pure _
theorem evalList_sim (σ : StateId) : ∀ es : List Expr, Sim f (evalList E σ es) (evalList E' σ (Expr.reslotAll f es))
  | [] => by simp only [Expr.reslotAll, evalList]; exact Sim.pure _
  | e :: es => by
    simp only [Expr.reslotAll, evalList]
    exact Sim.bind (eval_sim σ e) (fun v => Sim.bind (evalList_sim σ es) (fun vs => Sim.pure _))
theorem evalChain_sim (σ : StateId) : ∀ (ops : List Str) (es : List Expr) (v : Val P),
    Sim f (evalChain E σ ops es v) (evalChain E' σ ops (Expr.reslotAll f es) v)
  | [], es, v => by simp only [evalChain]; exact Sim.pure _
  | op :: ops, [], v => by simp only [Expr.reslotAll, evalChain]; exact Sim.pure _
  | op :: ops, e :: es, v => by
    simp only [Expr.reslotAll, evalChain]
    exact Sim.bind (eval_sim σ e) (fun w => Sim.bind (binOp_sim hE op v w) (fun r => evalChain_sim σ ops es r))
theorem evalStrs_sim (σ : StateId) : ∀ es : List Expr, Sim f (evalStrs E σ es) (evalStrs E' σ (Expr.reslotAll f es))
  | [] => by simp only [Expr.reslotAll, evalStrs]; exact Sim.pure _
  | e :: es => by
    simp only [Expr.reslotAll, evalStrs]
    exact Sim.bind (eval_sim σ e) (fun v => Sim.bind (STR_sim hE v) (fun s => Sim.bind (evalStrs_sim σ es) (fun _ => Sim.pure _)))
theorem evalBits_sim (σ : StateId) (op : Str) : ∀ (es : List Expr) (v : Val P), Sim f (evalBits E σ op es v) (evalBits E' σ op (Expr.reslotAll f es) v)
  | [], v => by simp only [Expr.reslotAll, evalBits]; exact Sim.pure _
  | e :: es, v => by
    simp only [Expr.reslotAll, evalBits]
    exact Sim.bind (eval_sim σ e) (fun w => Sim.bind (binOp_sim hE op v w) (fun r => evalBits_sim σ op es r))
theorem evalPipe_sim (σ : StateId) : ∀ (es : List Expr) (v : Val P), Sim f (evalPipe E σ es v) (evalPipe E' σ (Expr.reslotAll f es) v)
  | [], v => by simp only [Expr.reslotAll, evalPipe]; exact Sim.pure _
  | e :: es, v => by
    simp only [Expr.reslotAll, evalPipe]
    exact Sim.bind (eval_sim σ e) (fun w => Sim.bind (callVal_sim hE _ _ _) (fun r => evalPipe_sim σ es r))
theorem evalAnd_sim (σ : StateId) : ∀ (es : List Expr) (v : Val P), Sim f (evalAnd E σ es v) (evalAnd E' σ (Expr.reslotAll f es) v)
  | [], v => by simp only [Expr.reslotAll, evalAnd]; exact Sim.pure _
  | e :: es, v => by
    simp only [Expr.reslotAll, evalAnd]
    exact Sim.bind (truthOf_sim hE v) (fun b => Sim.ite (Sim.bind (truthOf_sim hE v) (fun b => Sim.ite
      (Sim.bind (eval_sim σ e) (fun w => evalAnd_sim σ es w)) (evalAnd_sim σ es v))) (Sim.pure _))
theorem evalOr_sim (σ : StateId) : ∀ (es : List Expr) (v : Val P), Sim f (evalOr E σ es v) (evalOr E' σ (Expr.reslotAll f es) v)
  | [], v => by simp only [Expr.reslotAll, evalOr]; exact Sim.pure _
  | e :: es, v => by
    simp only [Expr.reslotAll, evalOr]
    exact Sim.bind (truthOf_sim hE v) (fun b => Sim.ite (Sim.pure _) (Sim.bind (truthOf_sim hE v) (fun b => Sim.ite
      (evalOr_sim σ es v) (Sim.bind (eval_sim σ e) (fun w => evalOr_sim σ es w)))))
theorem applyTails_sim (σ : StateId) : ∀ (ts : List Tail) (v : Val P), Sim f (applyTails E σ ts v) (applyTails E' σ (Tail.reslotAll f ts) v)
  | [], v => by simp only [Tail.reslotAll, applyTails]; exact Sim.pure _
  | t :: ts, v => by
    simp only [Tail.reslotAll, applyTails]
    exact Sim.bind (applyTail_sim σ t v) (fun r => applyTails_sim σ ts r)
theorem applyTail_sim (σ : StateId) : ∀ (t : Tail) (v : Val P), Sim f (applyTail E σ t v) (applyTail E' σ (t.reslot f) v)
  | .call names args, g => by
    simp only [Tail.reslot, applyTail]
    exact Sim.bind (evalList_sim σ args) (fun vs => callVal_sim hE _ _ _)
  | .partialCall names [], g => by
    simp only [Tail.reslot, Expr.reslotAll, applyTail]
    exact Sim.pure _
  | .partialCall names (e :: es), g => by
    have := evalList_sim σ (e :: es)
    simp only [Expr.reslotAll] at this
    simp only [Tail.reslot, Expr.reslotAll, applyTail, List.isEmpty_cons]
    exact Sim.bind this (fun vs => Sim.pure _)
  | .index es, obj => by
    simp only [Tail.reslot, applyTail, hE.ops]
    refine Sim.bind (evalList_sim σ es) (fun vs => ?_)
    split <;> exact hE.runPy _
  | .member name, obj => by simp only [Tail.reslot, applyTail, hE.ops]; exact hE.runPy _
end

end
end
end Verif
