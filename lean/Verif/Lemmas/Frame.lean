import Verif.Lemmas.Control
import Verif.Spec.Blocks

/-!
Frame reasoning: a property of computations that holds of all primitive steps and is closed under
sequencing and exception handling, holds of evaluation and translation as a whole.
-/

namespace Verif
open Py

section
variable {P X W α β : Type}

/-- A property `G` of computations closed under everything that expressions are made of, if slots read from a state satisfy
`R` (`none`: a name that was not resolved). -/
structure Closed (E : Env P X W) (G : ∀ α : Type, Comp P X W α → Prop) (R : StateId → Option Slot → Prop) : Prop where
  pure : ∀ {α : Type} (a : α), G α (Pure.pure a)
  raise : ∀ {α : Type} (e : Exn X), e ≠ .unresolved → G α (Comp.raise e)
  unres : ∀ {α : Type} {σ}, R σ none → G α (Comp.raise .unresolved)
  timeout : ∀ {α : Type}, G α Comp.timeout
  bind : ∀ {α β : Type} {c : Comp P X W α} {f : α → Comp P X W β}, G α c → (∀ a, G β (f a)) →
    G β (c >>= f)
  tryExcept : ∀ {α : Type} {c h : Comp P X W α}, G α c → G α h → G α (Comp.tryExcept c h)
  qual : ∀ (q : Option Qual) {c : Comp P X W (Val P)}, G _ c → (∀ v, G _ (qualCheck E q v)) →
    G _ (qualified E q c)
  py : ∀ {α : Type} {c : PyM P X W α}, PyOp E.ops c → G α (runPy E c)
  call : ∀ c, G _ (E.call c)
  getSlot : ∀ σ sl, R σ (some sl) → G _ (getSlot σ sl)
  curIndent : ∀ σ, G _ (curIndent σ)
  readNode : ∀ r, G _ (readNode r)
  countNodes : G _ countNodes
  writeNode : ∀ r n, G _ (writeNode r n)
  allocNode : ∀ n, G _ (allocNode n)

section
variable {E : Env P X W} {G : ∀ α : Type, Comp P X W α → Prop} {R : StateId → Option Slot → Prop} (F : Closed E G R)
include F

namespace Closed

set_option linter.unusedSectionVars false in
theorem ite {p : Prop} [Decidable p] {c d : Comp P X W α} (hc : G _ c) (hd : G _ d) :
    G _ (if p then c else d) := by
  split
  · exact hc
  · exact hd

/-! ### Nodes -/

theorem forRefs {f : Ref → Comp P X W Unit} (hf : ∀ r, G _ (f r)) (rs : List Ref) :
    G _ (forRefs f rs) := by
  induction rs with
  | nil => exact F.pure ()
  | cons r rs ih => exact F.bind (hf r) (fun _ => ih)

theorem relativeIndent (k : Nat) (parent : Str) (r : Ref) :
    G _ (relativeIndent k parent r : Comp P X W Unit) := by
  induction k generalizing r with
  | zero => exact F.timeout
  | succ k ih =>
    refine F.bind (F.readNode r) (fun n => ?_)
    cases n.indent with
    | none => exact F.forRefs ih _
    | some ind => exact F.ite (F.ite (F.writeNode _ _) (F.raise _ nofun)) (F.pure _)

theorem relativeChildren (ind : Option Str) (body : List Ref) :
    G _ (relativeChildren ind body : Comp P X W Unit) := by
  cases ind with
  | none => exact F.pure ()
  | some i => exact F.bind F.countNodes (fun k => F.forRefs (F.relativeIndent _ _) _)

theorem setIndentNode (ind : Option Str) (r : Ref) :
    G _ (setIndentNode ind r : Comp P X W Unit) := by
  refine F.bind (F.readNode r) (fun n => F.bind (F.writeNode _ _) (fun _ => ?_))
  cases n.cls with
  | text s => exact F.pure ()
  | node => exact F.relativeChildren _ _
  | root => exact F.relativeChildren _ _

theorem setIndent (ind : Str) (ns : List Ref) : G _ (setIndent ind ns : Comp P X W Unit) :=
  F.forRefs (F.setIndentNode _) ns

theorem setOutline (o : Bool) (r : Ref) : G _ (setOutline o r : Comp P X W Unit) :=
  F.bind (F.readNode r) (fun _ => F.writeNode _ _)

theorem newText (s : Str) (ind : Option Str) : G _ (newText s ind : Comp P X W Ref) :=
  F.allocNode _

theorem newNode (cls body ind tag attrs kw) :
    G _ (newNode cls body ind tag attrs kw : Comp P X W Ref) :=
  F.bind (F.allocNode _) (fun _ => F.bind (F.relativeChildren _ _) (fun _ => F.pure _))

/-! ### Expressions -/

theorem truthOf (v : Val P) : G _ (truthOf E v) := by
  cases v <;> first | exact F.py (by constructor) | exact F.pure _

theorem strOf (v : Val P) : G _ (strOf E v) := by
  cases v <;> first | exact F.py (by constructor) | exact F.pure _

theorem STR (v : Val P) : G _ (STR E v) := by
  cases v <;> first | exact F.py (by constructor) | exact F.pure _ | exact F.raise _ nofun

theorem binOp (op : Str) (a b : Val P) : G _ (binOp E op a b) := by
  unfold Verif.binOp
  split
  · exact F.pure _
  · exact F.pure _
  · exact F.py (by constructor)

theorem callVal : ∀ (f : Val P) (args : List (Val P)) (kw : List (Str × Val P)),
    G _ (callVal E f args kw)
  | .embedded h st, args, kw => by
    simp only [Verif.callVal]
    cases embeddedArgs args kw with
    | none => exact F.raise _ nofun
    | some t => exact F.call _
  | .part f as k, args, [] => by simp only [Verif.callVal]; exact callVal f _ _
  | .part f as k, args, a :: b => by simp only [Verif.callVal]; exact F.raise _ nofun
  | .py p, args, kw => F.py (by constructor)
  | .none, args, kw => F.py (by constructor)
  | .bool _, args, kw => F.py (by constructor)
  | .str _, args, kw => F.py (by constructor)
  | .dom _, args, kw => F.py (by constructor)
  | .node _, args, kw => F.py (by constructor)
  | .hyper _, args, kw => F.py (by constructor)

theorem qualCheck (q : Option Qual) (v : Val P) : G _ (qualCheck E q v) := by
  refine F.bind (F.truthOf v) (fun b => F.ite (F.pure _) ?_)
  cases q with
  | none => exact F.pure _
  | some q =>
    cases q with
    | opt => exact F.pure _
    | obl => exact F.bind (F.py (by constructor)) (fun _ => F.raise _ nofun)

theorem qualified (q : Option Qual) {c : Comp P X W (Val P)} (hc : G _ c) : G _ (qualified E q c) :=
  F.qual q hc (F.qualCheck q)

theorem readName (σ : StateId) (slot : Option Slot) (h : R σ slot) :
    G _ (readName σ slot : Comp P X W _) := by
  cases slot with
  | none => exact F.unres h
  | some sl =>
    refine F.bind (F.getSlot σ sl h) (fun o => ?_)
    cases o with
    | none => exact F.raise _ nofun
    | some v => exact F.pure _

theorem negate (v : Val P) : G _ (negate E v) := by
  cases v <;> first | exact F.py (by constructor) | exact F.pure _

mutual
theorem eval (σ : StateId) : ∀ e : Expr, e.reads (R σ) → G _ (eval E σ e)
  | .root q e, h => by
    simp only [Verif.eval]; simp only [Expr.reads] at h
    exact F.qualified q (eval σ e h)
  | .tagUse _ slot, h => by
    simp only [Verif.eval]; simp only [Expr.reads] at h
    exact F.bind (F.readName σ slot h) (fun _ => F.pure _)
  | .varUse _ slot, h => by
    simp only [Verif.eval]; simp only [Expr.reads] at h
    exact F.readName σ slot h
  | .factor atom tail q, h => by
    simp only [Verif.eval]; simp only [Expr.reads] at h
    exact F.qualified q (F.bind (eval σ atom h.1) (fun v => applyTails σ tail v h.2))
  | .chain neg head ops es, h => by
    simp only [Verif.eval]; simp only [Expr.reads] at h
    exact F.bind (eval σ head h.1) (fun v => F.ite
      (F.bind (F.negate v) (fun w => evalChain σ ops es w h.2))
      (F.bind (F.pure v) (fun w => evalChain σ ops es w h.2)))
  | .concat es, h => by
    simp only [Verif.eval]; simp only [Expr.reads] at h
    exact F.bind (evalStrs σ es h) (fun _ => F.pure _)
  | .bits op head es, h => by
    simp only [Verif.eval]; simp only [Expr.reads] at h
    exact F.bind (eval σ head h.1) (fun v => evalBits σ op es v h.2)
  | .pipeline head fs, h => by
    simp only [Verif.eval]; simp only [Expr.reads] at h
    exact F.bind (eval σ head h.1) (fun v => evalPipe σ fs v h.2)
  | .notTest n e, h => by
    simp only [Verif.eval]; simp only [Expr.reads] at h
    exact F.bind (eval σ e h) (fun v => F.ite (F.bind (F.truthOf v) (fun _ => F.pure _)) (F.pure _))
  | .andTest head es, h => by
    simp only [Verif.eval]; simp only [Expr.reads] at h
    exact F.bind (eval σ head h.1) (fun v => evalAnd σ es v h.2)
  | .orTest head es, h => by
    simp only [Verif.eval]; simp only [Expr.reads] at h
    exact F.bind (eval σ head h.1) (fun v => evalOr σ es v h.2)
  | .ifElse x t none, h => by
    simp only [Verif.eval]; simp only [Expr.reads] at h
    exact F.bind (eval σ t h.2.1) (fun v => F.bind (F.truthOf v)
      (fun b => F.ite (eval σ x h.1) (F.pure _)))
  | .ifElse x t (some y), h => by
    simp only [Verif.eval]; simp only [Expr.reads, Expr.readsOpt] at h
    exact F.bind (eval σ t h.2.1) (fun v => F.bind (F.truthOf v)
      (fun b => F.ite (eval σ x h.1) (eval σ y h.2.2)))
  | .list es, h => by
    simp only [Verif.eval]; simp only [Expr.reads] at h
    exact F.bind (evalList σ es h) (fun _ => F.py (by constructor))
  | .tuple es, h => by
    simp only [Verif.eval]; simp only [Expr.reads] at h
    exact F.bind (evalList σ es h) (fun _ => F.py (by constructor))
  | .set es, h => by
    simp only [Verif.eval]; simp only [Expr.reads] at h
    exact F.bind (evalList σ es h) (fun _ => F.py (by constructor))
  | .dict es, h => by
    simp only [Verif.eval]; simp only [Expr.reads] at h
    exact F.bind (evalList σ es h) (fun _ => F.py (by constructor))
  | .format es, h => by
    simp only [Verif.eval]; simp only [Expr.reads] at h
    exact F.bind (evalStrs σ es h) (fun _ => F.pure _)
  | .static s, _ => by simp only [Verif.eval]; exact F.pure _
  | .strLit s, _ => by simp only [Verif.eval]; exact F.pure _
  | .number t, _ => by simp only [Verif.eval]; exact F.pure _
  | .boolean b, _ => by simp only [Verif.eval]; exact F.pure _
  | .noneLit, _ => by simp only [Verif.eval]; exact F.pure _
  | .sliceNone, _ => by simp only [Verif.eval]; exact F.pure _
theorem evalList (σ : StateId) : ∀ es : List Expr, Expr.readsAll (R σ) es →
    G _ (evalList E σ es)
  | [], _ => by simp only [Verif.evalList]; exact F.pure _
  | e :: es, h => by
    simp only [Verif.evalList]; simp only [Expr.readsAll] at h
    exact F.bind (eval σ e h.1) (fun v => F.bind (evalList σ es h.2) (fun vs => F.pure _))
theorem evalChain (σ : StateId) : ∀ (ops : List Str) (es : List Expr) (v : Val P),
    Expr.readsAll (R σ) es → G _ (evalChain E σ ops es v)
  | [], es, v, _ => by simp only [Verif.evalChain]; exact F.pure _
  | op :: ops, [], v, _ => by simp only [Verif.evalChain]; exact F.pure _
  | op :: ops, e :: es, v, h => by
    simp only [Verif.evalChain]; simp only [Expr.readsAll] at h
    exact F.bind (eval σ e h.1) (fun w => F.bind (F.binOp op v w)
      (fun r => evalChain σ ops es r h.2))
theorem evalStrs (σ : StateId) : ∀ es : List Expr, Expr.readsAll (R σ) es →
    G _ (evalStrs E σ es)
  | [], _ => by simp only [Verif.evalStrs]; exact F.pure _
  | e :: es, h => by
    simp only [Verif.evalStrs]; simp only [Expr.readsAll] at h
    exact F.bind (eval σ e h.1) (fun v => F.bind (F.STR v) (fun s => F.bind (evalStrs σ es h.2)
      (fun _ => F.pure _)))
theorem evalBits (σ : StateId) (op : Str) : ∀ (es : List Expr) (v : Val P),
    Expr.readsAll (R σ) es → G _ (evalBits E σ op es v)
  | [], v, _ => by simp only [Verif.evalBits]; exact F.pure _
  | e :: es, v, h => by
    simp only [Verif.evalBits]; simp only [Expr.readsAll] at h
    exact F.bind (eval σ e h.1) (fun w => F.bind (F.binOp op v w) (fun r => evalBits σ op es r h.2))
theorem evalPipe (σ : StateId) : ∀ (es : List Expr) (v : Val P), Expr.readsAll (R σ) es →
    G _ (evalPipe E σ es v)
  | [], v, _ => by simp only [Verif.evalPipe]; exact F.pure _
  | e :: es, v, h => by
    simp only [Verif.evalPipe]; simp only [Expr.readsAll] at h
    exact F.bind (eval σ e h.1) (fun w => F.bind (F.callVal _ _ _) (fun r => evalPipe σ es r h.2))
theorem evalAnd (σ : StateId) : ∀ (es : List Expr) (v : Val P), Expr.readsAll (R σ) es →
    G _ (evalAnd E σ es v)
  | [], v, _ => by simp only [Verif.evalAnd]; exact F.pure _
  | e :: es, v, h => by
    simp only [Verif.evalAnd]; simp only [Expr.readsAll] at h
    exact F.bind (F.truthOf v) (fun b => F.ite (F.bind (F.truthOf v) (fun b => F.ite
      (F.bind (eval σ e h.1) (fun w => evalAnd σ es w h.2)) (evalAnd σ es v h.2))) (F.pure _))
theorem evalOr (σ : StateId) : ∀ (es : List Expr) (v : Val P), Expr.readsAll (R σ) es →
    G _ (evalOr E σ es v)
  | [], v, _ => by simp only [Verif.evalOr]; exact F.pure _
  | e :: es, v, h => by
    simp only [Verif.evalOr]; simp only [Expr.readsAll] at h
    exact F.bind (F.truthOf v) (fun b => F.ite (F.pure _) (F.bind (F.truthOf v) (fun b => F.ite
      (evalOr σ es v h.2) (F.bind (eval σ e h.1) (fun w => evalOr σ es w h.2)))))
theorem applyTails (σ : StateId) : ∀ (ts : List Tail) (v : Val P), Tail.readsAll (R σ) ts →
    G _ (applyTails E σ ts v)
  | [], v, _ => by simp only [Verif.applyTails]; exact F.pure _
  | t :: ts, v, h => by
    simp only [Verif.applyTails]; simp only [Tail.readsAll] at h
    exact F.bind (applyTail σ t v h.1) (fun r => applyTails σ ts r h.2)
theorem applyTail (σ : StateId) : ∀ (t : Tail) (v : Val P), t.reads (R σ) →
    G _ (applyTail E σ t v)
  | .call names args, f, h => by
    simp only [Verif.applyTail]; simp only [Tail.reads] at h
    exact F.bind (evalList σ args h) (fun vs => F.callVal _ _ _)
  | .partialCall names args, f, h => by
    simp only [Verif.applyTail]; simp only [Tail.reads] at h
    exact F.ite (F.pure _) (F.bind (evalList σ args h) (fun vs => F.pure _))
  | .index es, obj, h => by
    simp only [Verif.applyTail]; simp only [Tail.reads] at h
    refine F.bind (evalList σ es h) (fun vs => ?_)
    split <;> exact F.py (by constructor)
  | .member name, obj, _ => by simp only [Verif.applyTail]; exact F.py (by constructor)
end

end Closed
end

end
end Verif
