import Verif.Lemmas.Frame
import Verif.Spec.Blocks

/-! Frame reasoning for the translation of statements. -/

namespace Verif
open Py

section
variable {P X W α β : Type}

/-! ### Frames -/

/-- A property of computations that is closed under everything that translation in state `σ` is made of,
if slots written satisfy `p`. If `I` then it holds of arbitrary changes of the indentation of `σ`;
otherwise it is assumed that restoring the indentation is enough. -/
structure TransFrame (E : Env P X W) (G : ∀ α : Type, Comp P X W α → Prop) (σ : StateId)
    (p : Option Slot → Prop) (R : StateId → Option Slot → Prop) (I : Prop) : Prop extends Closed E G R where
  expand : ∀ h b as kw, G _ (E.expand h b as kw σ)
  slot : ∀ sl v, p (some sl) → G _ (setSlot σ sl v : Comp P X W Unit)
  missing : p none → R σ none
  ind : I → ∀ s, G _ (putIndent σ s : Comp P X W Unit)
  keep : ∀ {α : Type} (c : Comp P X W α), (I → G _ c) → G _ (keepIndent σ c)

section
variable {E : Env P X W} {G : ∀ α : Type, Comp P X W α → Prop} {σ : StateId}
  {p : Option Slot → Prop} {R : StateId → Option Slot → Prop} {I : Prop} (F : TransFrame E G σ p R I)
include F

namespace TransFrame

theorem doIndent (hU : I) (ch : Char) : G _ (doIndent σ ch : Comp P X W Unit) :=
  F.bind (F.curIndent σ) (fun _ => F.ind hU _)

theorem doDedent (hU : I) (ch : Char) : G _ (doDedent σ ch : Comp P X W Unit) := by
  refine F.bind (F.curIndent σ) (fun ind => ?_)
  cases ind.getLast? with
  | none => exact F.raise _ nofun
  | some d => exact F.ite (F.ind hU _) (F.raise _ nofun)

theorem renderLine (l : Line) (h : l.reads (R σ)) : G _ (renderLine E σ l) := by
  cases l with
  | verbat s => exact F.pure _
  | markup ps => exact F.evalStrs σ ps h
  | normal ps =>
    refine F.bind (F.evalStrs σ ps h) (fun t => ?_)
    cases he : E.ops.escape with
    | none => exact F.pure _
    | some f => exact F.py (.escape f t he)

theorem renderItems (hU : I) (items : List TextItem)
    (h : ∀ i ∈ items, i.reads (R σ)) : G _ (renderItems E σ items) := by
  induction items with
  | nil => exact F.pure _
  | cons i is ih =>
    refine F.bind ?_ (fun s => F.bind (ih (fun j hj => h j (by simp [hj]))) (fun _ => F.pure _))
    have h := h i (by simp)
    cases i with
    | line l => exact F.bind (F.curIndent σ) (fun _ => F.bind (F.renderLine l h) (fun _ => F.pure _))
    | margin s => exact F.pure _
    | indent c => exact F.bind (F.doIndent hU c) (fun _ => F.pure _)
    | dedent c => exact F.bind (F.doDedent hU c) (fun _ => F.pure _)

theorem renderText (lead : Nat) (items : List TextItem) (h : ∀ i ∈ items, i.reads (R σ)) :
    G _ (renderText E σ lead items) :=
  F.bind (F.keep _ (fun hU => F.bind (F.ind hU _) (fun _ => F.renderItems hU items h)))
    (fun _ => F.pure _)

theorem unpackEnd (it : Val P) : G _ (unpackEnd E it) := by
  refine F.bind (F.py (by constructor)) (fun o => ?_)
  cases o with
  | none => exact F.pure _
  | some v => exact F.raise _ nofun

mutual
theorem assignTarget : ∀ (t : Target) (v : Val P), t.writes p → G _ (assignTarget E σ t v)
  | .var _ _ _ none, v, h => by
    simp only [Verif.assignTarget]; simp only [Target.writes] at h; exact F.unres (F.missing h)
  | .var _ _ _ (some sl), v, h => by
    simp only [Verif.assignTarget]
    simp only [Target.writes] at h
    exact F.slot sl v h
  | .many [], v, _ => by
    simp only [Verif.assignTarget]
    exact F.bind (F.py (by constructor)) (fun it => by simp only [Verif.unpackTargets]; exact F.unpackEnd it)
  | .many [t], v, h => by
    simp only [Verif.assignTarget]
    simp only [Target.writes, Target.writesAll] at h
    exact assignTarget t v h.1
  | .many (t1 :: t2 :: ts), v, h => by
    simp only [Target.writes] at h
    have ha : Verif.assignTarget E σ (.many (t1 :: t2 :: ts)) v =
        (Verif.runPy E (E.ops.iter v) >>= fun it => Verif.unpackTargets E σ (t1 :: t2 :: ts) it) := by
      rw [Verif.assignTarget]; simp
    rw [ha]
    exact F.bind (F.py (by constructor)) (fun it => unpackTargets (t1 :: t2 :: ts) it h)
theorem unpackTargets : ∀ (ts : List Target) (it : Val P), Target.writesAll p ts →
    G _ (unpackTargets E σ ts it)
  | [], it, _ => by simp only [Verif.unpackTargets]; exact F.unpackEnd it
  | t :: ts, it, h => by
    simp only [Target.writesAll] at h
    simp only [Verif.unpackTargets]
    refine F.bind (F.py (by constructor)) (fun o => ?_)
    cases o with
    | none => exact F.raise _ nofun
    | some v => exact F.bind (assignTarget t v h.1) (fun _ => unpackTargets ts it h.2)
end

theorem evalTarget (t : Target) (h : t.reads (R σ)) : G _ (evalTarget σ t : Comp P X W (Val P)) := by
  unfold Verif.evalTarget
  split
  · simp only [Target.reads, Target.readsAll] at h
    exact F.readName σ _ (h.1 trivial)
  · exact F.raise _ nofun

theorem evalNamed (l : List (Str × Expr)) (h : ∀ n ∈ l, n.2.reads (R σ))
    (d : Dict Str (Val P)) : G _ (evalNamed E σ l d) := by
  induction l generalizing d with
  | nil => exact F.pure _
  | cons a l ih =>
    obtain ⟨n, e⟩ := a
    simp only [Verif.evalNamed]
    refine F.bind (F.eval σ e (h (n, e) (by simp))) (fun v => ?_)
    have ih := ih (fun m hm => h m (by simp [hm]))
    cases Dict.get? d n with
    | none => exact ih _
    | some old => exact F.bind (F.binOp _ _ _) (fun _ => F.bind (F.binOp _ _ _) (fun _ => ih _))

theorem applyTagValue (v : Val P) (body : List Ref) (as : List (Val P)) (kw : Dict Str (Val P)) :
    G _ (applyTagValue E σ v body as kw) := by
  cases v with
  | hyper h => exact F.expand _ _ _ _
  | py q =>
    simp only [Verif.applyTagValue]
    exact F.ite (F.bind (F.newNode _ _ _ _ _ _) (fun _ => F.pure _)) (F.raise _ nofun)
  | _ => exact F.raise _ nofun

theorem readTag (slot : Option Slot) (h : R σ slot) : G _ (readTag σ slot : Comp P X W (Val P)) := by
  cases slot with
  | none => exact F.unres h
  | some sl =>
    refine F.bind (F.getSlot σ sl h) (fun o => ?_)
    cases o with
    | none => exact F.raise _ nofun
    | some v => exact F.pure _

theorem translTag (t : TagExp) (h : t.reads (R σ)) (body : List Ref) : G _ (translTag E σ t body) := by
  cases t with
  | tag n slot us ns =>
    exact F.bind (F.evalList σ us h.1) (fun _ => F.bind (F.evalNamed ns h.2.1 []) (fun _ =>
      F.bind (F.readTag slot h.2.2) (fun v => F.applyTagValue v body _ _)))
  | null => exact F.bind (F.newNode _ _ _ _ _ _) (fun _ => F.pure _)

theorem applyTags (ts : List TagExp) (h : ∀ t ∈ ts, t.reads (R σ)) (body : List Ref) :
    G _ (applyTags E σ ts body) := by
  induction ts generalizing body with
  | nil => exact F.pure _
  | cons t ts ih =>
    exact F.bind (F.translTag t (h t (by simp)) body)
      (fun b => ih (fun u hu => h u (by simp [hu])) b)

theorem flattenVals (vs : List (Val P)) : G _ (flattenVals E vs) := by
  induction vs with
  | nil => exact F.pure _
  | cons v vs ih =>
    refine F.bind ?_ (fun _ => F.bind ih (fun _ => F.pure _))
    cases v <;> first | exact F.pure _ | exact F.py (by constructor) | exact F.raise _ nofun

theorem asSequence (v : Val P) : G _ (asSequence E v) := by
  cases v <;> first
    | exact F.pure _
    | exact F.bind (F.tryExcept (F.py (by constructor)) (F.raise _ nofun)) (fun vs => F.flattenVals vs)

theorem setSlots (l : List (Slot × Val P)) (h : ∀ o ∈ wildSlots (some l), p o) :
    G _ (setSlots σ l : Comp P X W Unit) := by
  induction l with
  | nil => exact F.pure _
  | cons a l ih =>
    simp only [wildSlots, List.map_cons, List.mem_cons, forall_eq_or_imp] at h
    exact F.bind (F.slot _ _ h.1) (fun _ => ih h.2)

theorem translImport (i : ImportItem P) (h : i.writes p) :
    G _ (translImport σ i : Comp P X W Unit) := by
  cases i with
  | wild slots =>
    cases slots with
    | none => exact F.unres (F.missing (h none (by simp [wildSlots])))
    | some l => exact F.setSlots l h
  | name s r slot =>
    cases slot with
    | none => exact F.unres (F.missing h)
    | some q => exact F.slot _ _ h
  | cntx s r slot =>
    cases slot with
    | none => exact F.unres (F.missing h)
    | some q => exact F.slot _ _ h

theorem translImports (is : List (ImportItem P)) (h : ∀ i ∈ is, i.writes p) :
    G _ (translImports σ is : Comp P X W Unit) := by
  induction is with
  | nil => exact F.pure _
  | cons i is ih =>
    exact F.bind (F.translImport i (h i (by simp))) (fun _ => ih (fun q hq => h q (by simp [hq])))

theorem whileLoop {test : Comp P X W Bool} {body : Comp P X W (List Ref)} (ht : G _ test)
    (hb : G _ body) (k : Nat) (out : List Ref) (empty : Bool) :
    G _ (whileLoop test body k out empty) := by
  induction k generalizing out empty with
  | zero => exact F.timeout
  | succ k ih => exact F.bind ht (fun b => F.ite (F.bind hb (fun ns => ih _ _)) (F.pure _))

theorem forLoop {next : Comp P X W (Option (Val P))} {step : Val P → Comp P X W (List Ref)}
    (hn : G _ next) (hs : ∀ v, G _ (step v)) (k : Nat) (out : List Ref) (empty : Bool) :
    G _ (forLoop next step k out empty) := by
  induction k generalizing out empty with
  | zero => exact F.timeout
  | succ k ih =>
    refine F.bind hn (fun o => ?_)
    cases o with
    | none => exact F.pure _
    | some v => exact F.bind (hs v) (fun ns => ih _ _)

theorem tryLoop {cs : List (Comp P X W (List Ref))} (h : ∀ c ∈ cs, G _ c) :
    G _ (tryLoop cs) := by
  induction cs with
  | nil => exact F.pure _
  | cons c cs ih =>
    exact F.tryExcept (h c (by simp)) (ih (fun d hd => h d (by simp [hd])))

theorem translStatic (s : Str) : G _ (translStatic s : Comp P X W (List Ref)) := by
  cases s with
  | nil => exact F.pure _
  | cons c s => exact F.bind (F.newText _ _) (fun _ => F.pure _)

theorem finishBlock (m : Option Modifier) (margin : List Ref) (b : Option (List Ref)) :
    G _ (finishBlock m margin b : Comp P X W (List Ref)) := by
  unfold Verif.finishBlock
  split
  · refine F.ite ?_ ?_
    · refine F.ite ?_ ?_
      · exact F.bind (F.setIndent _ _) (fun _ => F.pure _)
      · exact F.pure _
    · refine F.bind (F.setOutline _ _) (fun _ => F.ite ?_ ?_)
      · exact F.bind (F.setIndent _ _) (fun _ => F.pure _)
      · exact F.pure _
  · exact F.pure _

theorem withIndent (ns : List Ref) : G _ (withIndent σ ns : Comp P X W _) :=
  F.bind (F.curIndent σ) (fun _ => F.bind (F.setIndent _ _) (fun _ => F.pure _))

theorem loopResult (r : List Ref × Bool) (els : Option (Comp P X W (List Ref)))
    (h : ∀ c, els = some c → G _ c) : G _ (loopResult r els) := by
  unfold Verif.loopResult
  split
  · exact h _ rfl
  · exact F.pure _

theorem optBranch (c : Option (Comp P X W (List Ref))) (h : ∀ d, c = some d → G _ d) :
    G _ (optBranch c) := by
  cases c with
  | none => exact F.pure _
  | some d => exact h d rfl

theorem requiredBranch (c : Option (Comp P X W (List Ref))) (h : ∀ d, c = some d → G _ d) :
    G _ (requiredBranch c) := by
  cases c with
  | none => exact F.raise _ nofun
  | some d => exact h d rfl

theorem inplace (t : Target) (h : t.reads (R σ)) (op : Option Str) (v : Val P) : G _ (inplace E σ t op v) := by
  cases op with
  | none => exact F.pure _
  | some o => exact F.bind (F.evalTarget t h) (fun c => F.binOp _ _ _)

omit F in
theorem head?_mem {γ : Type} {l : List γ} {a : γ} (h : l.head? = some a) : a ∈ l := by
  cases l with
  | nil => simp at h
  | cons b l => simp at h; simp [h]

omit F in
theorem lastElse_mem {rest : List (Stmt P)} {cs : List (Comp P X W (List Ref))} {c}
    (h : lastElse rest cs = some c) : c ∈ cs := by
  unfold lastElse at h
  split at h
  · exact List.mem_of_getLast? h
  · cases h

mutual
/-- Translation respects the frame. -/
theorem transl : ∀ s : Stmt P, s.reads (R σ) → s.writes p → (¬ I → s.isBlock) →
    G _ (transl E σ s)
  | .static s, _, _, _ => by
    simp only [Verif.transl]; exact F.bind (F.translStatic s) (fun _ => F.pure _)
  | .indent c, _, _, hb => by
    have hU : I := by by_contra h; exact (by simpa only [Stmt.isBlock] using hb h)
    simp only [Verif.transl]; exact F.bind (F.doIndent hU c) (fun _ => F.pure _)
  | .dedent c, _, _, hb => by
    have hU : I := by by_contra h; exact (by simpa only [Stmt.isBlock] using hb h)
    simp only [Verif.transl]; exact F.bind (F.doDedent hU c) (fun _ => F.pure _)
  | .line l, hr, _, _ => by
    simp only [Verif.transl]
    simp only [Stmt.reads] at hr
    exact F.bind (F.renderLine l hr) (fun _ => F.bind (F.newText _ _) (fun _ => F.pure _))
  | .xblock m mo b, hr, hw, hb => by
    simp only [Verif.transl]
    simp only [Stmt.reads] at hr
    simp only [Stmt.writes] at hw
    simp only [Stmt.isBlock] at hb
    exact F.bind (F.translStatic m) (fun _ => F.bind (transl b hr hw hb)
      (fun _ => F.bind (F.finishBlock _ _ _) (fun _ => F.pure _)))
  | .text lead items, hr, _, _ => by
    simp only [Verif.transl]
    simp only [Stmt.reads] at hr
    exact F.bind (F.renderText lead items hr) (fun _ => F.bind (F.curIndent σ) (fun _ =>
      F.bind (F.newText _ _) (fun _ => F.pure _)))
  | .comment, _, _, _ => by simp only [Verif.transl]; exact F.pure _
  | .embed e, hr, _, _ => by
    simp only [Verif.transl]
    simp only [Stmt.reads] at hr
    exact F.bind (F.eval σ e hr) (fun v => F.bind (F.asSequence v) (fun ns => F.withIndent ns))
  | .struct tags b, hr, hw, hb => by
    simp only [Verif.transl]
    simp only [Stmt.reads] at hr
    simp only [Stmt.writes] at hw
    simp only [Stmt.isBlock] at hb
    exact F.bind (transl b hr.2 hw hb) (fun _ => F.bind
      (F.applyTags _ (fun t ht => hr.1 t (List.mem_reverse.mp ht)) _) (fun ns => F.withIndent ns))
  | .defn id n none _ _ _, _, hw, _ => by
    simp only [Verif.transl]
    simp only [Stmt.writes] at hw
    exact F.unres (F.missing hw)
  | .defn id n (some sl) _ _ _, _, hw, _ => by
    simp only [Verif.transl]
    simp only [Stmt.writes] at hw
    exact F.bind (F.slot sl _ hw) (fun _ => F.pure _)
  | .imports _ _ items, _, hw, _ => by
    simp only [Verif.transl]
    simp only [Stmt.writes] at hw
    exact F.bind (F.translImports items hw) (fun _ => F.pure _)
  | .tryBlock bs, hr, hw, hb => by
    simp only [Verif.transl]
    simp only [Stmt.reads] at hr
    simp only [Stmt.writes] at hw
    simp only [Stmt.isBlock] at hb
    exact F.bind (F.tryLoop (translEach bs hr hw hb)) (fun ns => F.withIndent ns)
  | .ifBlock cs els, hr, hw, hb => by
    simp only [Verif.transl]
    simp only [Stmt.reads] at hr
    simp only [Stmt.writes] at hw
    simp only [Stmt.isBlock] at hb
    exact F.bind (translIf cs _ hr.1 hw.1 (fun h => (hb h).1)
      (translOpt els hr.2 hw.2 (fun h => (hb h).2))) (fun ns => F.withIndent ns)
  | .elseClause b, hr, hw, hb => by
    simp only [Verif.transl]
    simp only [Stmt.reads] at hr
    simp only [Stmt.writes] at hw
    simp only [Stmt.isBlock] at hb
    exact F.bind (F.requiredBranch _ (translOpt b hr hw hb)) (fun _ => F.pure _)
  | .whileBlock t b els, hr, hw, hb => by
    simp only [Verif.transl]
    simp only [Stmt.reads] at hr
    simp only [Stmt.writes] at hw
    simp only [Stmt.isBlock] at hb
    exact F.bind (F.whileLoop (F.bind (F.eval σ t hr.1) (fun v => F.truthOf v))
        (F.optBranch _ (translOpt b hr.2.1 hw.1 (fun h => (hb h).1))) _ _ _)
      (fun r => F.bind (F.loopResult r _ (translOpt els hr.2.2 hw.2 (fun h => (hb h).2)))
        (fun ns => F.withIndent ns))
  | .forBlock t e rest, hr, hw, hb => by
    simp only [Verif.transl]
    simp only [Stmt.reads] at hr
    simp only [Stmt.writes] at hw
    simp only [Stmt.isBlock] at hb
    have hc := translEach rest hr.2 hw.2 hb
    exact F.bind (F.eval σ e hr.1) (fun _ => F.bind (F.py (by constructor)) (fun _ =>
      F.bind (F.forLoop (F.py (by constructor)) (fun v => F.bind (F.assignTarget t v hw.1) (fun _ =>
        F.optBranch _ (fun d hd => hc d (head?_mem hd)))) _ _ _)
      (fun r => F.bind (F.loopResult r _ (fun d hd => hc d (lastElse_mem hd)))
        (fun ns => F.withIndent ns))))
  | .exprBlock e, hr, _, _ => by
    simp only [Verif.transl]
    simp only [Stmt.reads] at hr
    exact F.bind (F.eval σ e hr) (fun _ => F.pure _)
  | .assign t op e, hr, hw, _ => by
    simp only [Verif.transl]
    simp only [Stmt.reads] at hr
    simp only [Stmt.writes] at hw
    exact F.bind (F.eval σ e hr.1) (fun v => F.bind (F.inplace t hr.2 op v) (fun v =>
      F.bind (F.assignTarget t v hw) (fun _ => F.pure _)))
  | .body ss, hr, hw, _ => by
    simp only [Verif.transl]
    simp only [Stmt.reads] at hr
    simp only [Stmt.writes] at hw
    exact F.bind (F.keep _ (fun hU => translAll hU ss hr hw)) (fun _ => F.pure _)
  | .pass, _, _, _ => by simp only [Verif.transl]; exact F.pure _
theorem translAll (hU : I) : ∀ ss : List (Stmt P), Stmt.readsAll (R σ) ss →
    Stmt.writesAll p ss → G _ (translAll E σ ss)
  | [], _, _ => by simp only [Verif.translAll]; exact F.pure _
  | s :: ss, hr, hw => by
    simp only [Verif.translAll]
    simp only [Stmt.readsAll] at hr
    simp only [Stmt.writesAll] at hw
    exact F.bind (transl s hr.1 hw.1 (fun h => absurd hU h)) (fun _ =>
      F.bind (translAll hU ss hr.2 hw.2) (fun _ => F.pure _))
theorem translEach : ∀ ss : List (Stmt P), Stmt.readsAll (R σ) ss → Stmt.writesAll p ss →
    (¬ I → Stmt.allBlocks ss) → ∀ c ∈ translEach E σ ss, G _ c
  | [], _, _, _ => by simp only [Verif.translEach]; simp
  | s :: ss, hr, hw, hb => by
    simp only [Verif.translEach]
    simp only [Stmt.readsAll] at hr
    simp only [Stmt.writesAll] at hw
    simp only [Stmt.allBlocks] at hb
    intro c hc
    simp only [List.mem_cons] at hc
    rcases hc with rfl | hc
    · exact F.bind (transl s hr.1 hw.1 (fun h => (hb h).1)) (fun _ => F.pure _)
    · exact translEach ss hr.2 hw.2 (fun h => (hb h).2) c hc
theorem translIf : ∀ (cs : List (Expr × Option (Stmt P))) (els : Option (Comp P X W (List Ref))),
    Stmt.readsClauses (R σ) cs → Stmt.writesClauses p cs → (¬ I → Stmt.blockClauses cs) →
    (∀ d, els = some d → G _ d) → G _ (translIf E σ cs els)
  | [], els, _, _, _, he => by simp only [Verif.translIf]; exact F.optBranch _ he
  | c :: cs, els, hr, hw, hb, he => by
    simp only [Verif.translIf]
    simp only [Stmt.readsClauses] at hr
    simp only [Stmt.writesClauses] at hw
    simp only [Stmt.blockClauses] at hb
    have h1 : c.1.reads (R σ) := by
      obtain ⟨t, b⟩ := c; simp only [Stmt.readsClause] at hr; exact hr.1.1
    exact F.bind (F.eval σ c.1 h1) (fun v => F.bind (F.truthOf v) (fun _ =>
      F.ite (translBranch c hr.1 hw.1 (fun h => (hb h).1))
        (translIf cs els hr.2 hw.2 (fun h => (hb h).2) he)))
theorem translBranch : ∀ c : Expr × Option (Stmt P), Stmt.readsClause (R σ) c →
    Stmt.writesClause p c → (¬ I → Stmt.blockClause c) → G _ (translBranch E σ c)
  | (_, b), hr, hw, hb => by
    simp only [Verif.translBranch]
    simp only [Stmt.readsClause] at hr
    simp only [Stmt.writesClause] at hw
    simp only [Stmt.blockClause] at hb
    exact F.optBranch _ (translOpt b hr.2 hw hb)
theorem translOpt : ∀ o : Option (Stmt P), Stmt.readsOpt (R σ) o → Stmt.writesOpt p o →
    (¬ I → Stmt.blockOpt o) → ∀ d, translOpt E σ o = some d → G _ d
  | .none, _, _, _, d, h => by simp only [Verif.translOpt] at h; cases h
  | some s, hr, hw, hb, d, h => by
    simp only [Verif.translOpt] at h
    simp only [Stmt.readsOpt] at hr
    simp only [Stmt.writesOpt] at hw
    simp only [Stmt.blockOpt] at hb
    cases h
    exact F.bind (transl s hr hw hb) (fun _ => F.pure _)
end

/-! ### Expansion of hypertags -/

theorem assignAttr (slot : Option Slot) (v : Val P) (h : p slot) :
    G _ (assignAttr σ slot v : Comp P X W Unit) := by
  cases slot with
  | none => exact F.unres (F.missing h)
  | some sl => exact F.slot _ _ h

theorem bindDefaults (as : List AttrDef) (h : ∀ a ∈ as, Expr.readsOpt (R σ) a.default)
    (kw : Dict Str (Val P)) :
    G _ (bindDefaults E σ as kw) := by
  induction as generalizing kw with
  | nil => exact F.pure _
  | cons a as ih =>
    simp only [Verif.bindDefaults]
    have h1 := h a (by simp)
    have ih := ih (fun b hb => h b (by simp [hb]))
    refine F.ite (ih _) ?_
    cases hd : a.default with
    | none => exact F.raise _ nofun
    | some e =>
      rw [hd] at h1
      exact F.bind (F.eval σ e h1) (fun _ => ih _)

theorem assignAttrs (as : List AttrDef) (h : ∀ a ∈ as, p a.slot)
    (l : List (Str × Val P)) : G _ (assignAttrs σ as l : Comp P X W Unit) := by
  induction l with
  | nil => exact F.pure _
  | cons q l ih =>
    obtain ⟨n, v⟩ := q
    simp only [Verif.assignAttrs]
    cases hf : as.find? (fun a => decide (a.name = n)) with
    | none => exact F.bind (F.raise _ nofun) (fun _ => ih)
    | some a =>
      exact F.bind (F.assignAttr _ _ (h a (List.mem_of_find?_eq_some hf))) (fun _ => ih)

theorem assignBody (a : Option AttrDef) (h : ∀ d, a = some d → p d.slot)
    (body : Val P) : G _ (assignBody E σ a body) := by
  cases a with
  | none => exact F.bind (F.truthOf body) (fun _ => F.ite (F.raise _ nofun) (F.pure _))
  | some d => exact F.assignAttr _ _ (h d rfl)

theorem appendAttrs (d : DefInfo P) (hr : d.reads (R σ)) (hw : d.writes p) (body : Val P) (as : List (Val P))
    (kw : Dict Str (Val P)) : G _ (appendAttrs E σ d body as kw) := by
  simp only [Verif.appendAttrs]
  refine F.ite (F.raise _ nofun) (F.ite (F.raise _ nofun) (F.ite (F.raise _ nofun) ?_))
  cases bindPositional d.attrs as kw with
  | none => exact F.raise _ nofun
  | some kw1 =>
    exact F.bind (F.bindDefaults _ hr.1 _) (fun _ => F.bind (F.assignAttrs _ hw.2.1 _) (fun _ =>
      F.bind (F.assignBody _ hw.1 _) (fun _ => F.pure _)))

theorem firstInline (ns : List Ref) : G _ (firstInline ns : Comp P X W Unit) := by
  cases ns with
  | nil => exact F.pure _
  | cons r rs => exact F.setOutline _ _

theorem expandDef (id : DefId) (d : DefInfo P) (hr : d.reads (R σ)) (hw : d.writes p)
    (hbl : ¬ I → d.body.isBlock) (body : Val P) (as : List (Val P)) (kw : Dict Str (Val P)) :
    G _ (expandDef E id d body as kw σ) :=
  F.bind (F.appendAttrs d hr hw body as kw) (fun _ => F.bind (F.transl d.body hr.2 hw.2.2 hbl) (fun _ =>
    F.bind (F.curIndent σ) (fun _ => F.bind (F.setIndent _ _) (fun _ =>
      F.bind (F.firstInline _) (fun _ => F.bind (F.newNode _ _ _ _ _ _) (fun _ => F.pure _))))))

end TransFrame
end

end
end Verif
