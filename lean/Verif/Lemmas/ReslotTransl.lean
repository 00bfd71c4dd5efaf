import Verif.Lemmas.Reslot
import Verif.Lemmas.WritesMono

/-! Translation of statements that have other slots. -/

set_option linter.unusedSectionVars false

namespace Verif
open Py

section
variable {P X W α β : Type} {f : Slot → Slot}

/-! ### Parts of statements -/

theorem doIndent_sim (σ : StateId) (ch : Char) : Sim f (doIndent σ ch : Comp P X W Unit) (doIndent σ ch) :=
  Sim.bind (Sim.curIndent σ) (fun _ => Sim.putIndent σ _)

theorem doDedent_sim (σ : StateId) (ch : Char) : Sim f (doDedent σ ch : Comp P X W Unit) (doDedent σ ch) := by
  refine Sim.bind (Sim.curIndent σ) (fun ind => ?_)
  cases ind.getLast? with
  | none => exact Sim.raise _
  | some d => exact Sim.ite (Sim.putIndent σ _) (Sim.raise _)

theorem setSlots_sim (σ : StateId) (l : List (Slot × Val P)) (h : ∀ x ∈ l, Own f (some x.1)) :
    Sim f (setSlots σ l : Comp P X W Unit) (setSlots σ (l.map (fun x => (f x.1, x.2)))) := by
  induction l with
  | nil => exact Sim.pure _
  | cons a l ih =>
    obtain ⟨sl, v⟩ := a
    exact Sim.bind (Sim.setSlot σ sl v (h (sl, v) (by simp))) (fun _ => ih (fun x hx => h x (by simp [hx])))

theorem translImport_sim (σ : StateId) (i : ImportItem P) (h : i.writes (Own f)) :
    Sim f (translImport σ i : Comp P X W Unit) (translImport σ (i.reslot f)) := by
  cases i with
  | wild slots =>
    cases slots with
    | none => exact Sim.raise _
    | some l =>
      refine setSlots_sim σ l (fun x hx => h (some x.1) ?_)
      simp only [wildSlots, List.mem_map]
      exact ⟨x, hx, rfl⟩
  | name s r slot =>
    cases slot with
    | none => exact Sim.raise _
    | some q => exact Sim.setSlot σ _ _ h
  | cntx s r slot =>
    cases slot with
    | none => exact Sim.raise _
    | some q => exact Sim.setSlot σ _ _ h

theorem translImports_sim (σ : StateId) (is : List (ImportItem P)) (h : ∀ i ∈ is, i.writes (Own f)) :
    Sim f (translImports σ is : Comp P X W Unit) (translImports σ (is.map (ImportItem.reslot f))) := by
  induction is with
  | nil => exact Sim.pure _
  | cons i is ih =>
    exact Sim.bind (translImport_sim σ i (h i (by simp))) (fun _ => ih (fun q hq => h q (by simp [hq])))

theorem whileLoop_sim {test test' : Comp P X W Bool} {body body' : Comp P X W (List Ref)} (ht : Sim f test test')
    (hb : Sim f body body') (k : Nat) (out : List Ref) (empty : Bool) :
    Sim f (whileLoop test body k out empty) (whileLoop test' body' k out empty) := by
  induction k generalizing out empty with
  | zero => exact Sim.timeout
  | succ k ih => exact Sim.bind ht (fun b => Sim.ite (Sim.bind hb (fun ns => ih _ _)) (Sim.pure _))

theorem forLoop_sim {next next' : Comp P X W (Option (Val P))} {step step' : Val P → Comp P X W (List Ref)}
    (hn : Sim f next next') (hs : ∀ v, Sim f (step v) (step' v)) (k : Nat) (out : List Ref) (empty : Bool) :
    Sim f (forLoop next step k out empty) (forLoop next' step' k out empty) := by
  induction k generalizing out empty with
  | zero => exact Sim.timeout
  | succ k ih =>
    refine Sim.bind hn (fun o => ?_)
    cases o with
    | none => exact Sim.pure _
    | some v => exact Sim.bind (hs v) (fun ns => ih _ _)

/-- Optional computations. -/
inductive SimOpt (f : Slot → Slot) : Option (Comp P X W α) → Option (Comp P X W α) → Prop
  | none : SimOpt f .none .none
  | some {c c'} : Sim f c c' → SimOpt f (.some c) (.some c')

theorem loopResult_sim (r : List Ref × Bool) {e e' : Option (Comp P X W (List Ref))} (h : SimOpt f e e') :
    Sim f (loopResult r e) (loopResult r e') := by
  obtain ⟨ns, b⟩ := r
  cases h with
  | none => cases b <;> exact Sim.pure _
  | some h =>
    cases b with
    | true => exact h
    | false => exact Sim.pure _

theorem optBranch_sim {e e' : Option (Comp P X W (List Ref))} (h : SimOpt f e e') : Sim f (optBranch e) (optBranch e') := by
  cases h with
  | none => exact Sim.pure _
  | some h => exact h

theorem requiredBranch_sim {e e' : Option (Comp P X W (List Ref))} (h : SimOpt f e e') : Sim f (requiredBranch e) (requiredBranch e') := by
  cases h with
  | none => exact Sim.raise _
  | some h => exact h

/-- Lists of computations. -/
abbrev SimList (f : Slot → Slot) (cs cs' : List (Comp P X W (List Ref))) : Prop := List.Forall₂ (Sim f) cs cs'

theorem tryLoop_sim {cs cs' : List (Comp P X W (List Ref))} (h : SimList f cs cs') : Sim f (tryLoop cs) (tryLoop cs') := by
  induction h with
  | nil => exact Sim.pure _
  | cons h _ ih => exact Sim.tryExcept h ih

theorem head_sim {cs cs' : List (Comp P X W (List Ref))} (h : SimList f cs cs') : SimOpt f cs.head? cs'.head? := by
  cases h with
  | nil => exact .none
  | cons h _ => exact .some h

theorem last_sim {cs cs' : List (Comp P X W (List Ref))} (h : SimList f cs cs') : SimOpt f cs.getLast? cs'.getLast? := by
  induction h with
  | nil => exact .none
  | cons h t ih =>
    cases t with
    | nil => exact .some h
    | cons _ _ => simpa only [List.getLast?_cons_cons] using ih

theorem isElse_reslot (s : Stmt P) : (s.reslot f).isElse = s.isElse := by
  cases s <;> simp only [Stmt.reslot] <;> rfl

theorem reslotAll_map (ss : List (Stmt P)) : Stmt.reslotAll f ss = ss.map (Stmt.reslot f) := by
  induction ss with
  | nil => simp only [Stmt.reslotAll, List.map_nil]
  | cons s ss ih => simp only [Stmt.reslotAll, List.map_cons, ih]

theorem lastElse_sim {ss : List (Stmt P)} {cs cs' : List (Comp P X W (List Ref))} (h : SimList f cs cs') :
    SimOpt f (lastElse ss cs) (lastElse (Stmt.reslotAll f ss) cs') := by
  unfold lastElse
  rw [reslotAll_map, List.getLast?_map]
  have e : (ss.getLast?.map (Stmt.reslot f)).any Stmt.isElse = ss.getLast?.any Stmt.isElse := by
    cases ss.getLast? with
    | none => rfl
    | some s => simp only [Option.map_some, Option.any_some, isElse_reslot]
  rw [e]
  split
  · exact last_sim h
  · exact .none

section
variable {E E' : Env P X W} (hE : SimEnv f E E')
include hE

theorem setIndent_sim (ind : Str) (ns : List Ref) : Sim f (setIndent ind ns : Comp P X W Unit) (setIndent ind ns) :=
  (Sim.closed f E.ops).setIndent ind ns
theorem setOutline_sim (o : Bool) (r : Ref) : Sim f (setOutline o r : Comp P X W Unit) (setOutline o r) :=
  (Sim.closed f E.ops).setOutline o r
theorem newText_sim (s : Str) (ind : Option Str) : Sim f (newText s ind : Comp P X W Ref) (newText s ind) :=
  (Sim.closed f E.ops).newText s ind
theorem newNode_sim (cls body ind tag attrs kw) :
    Sim f (newNode cls body ind tag attrs kw : Comp P X W Ref) (newNode cls body ind tag attrs kw) :=
  (Sim.closed f E.ops).newNode cls body ind tag attrs kw

theorem renderLine_sim (σ : StateId) (l : Line) : Sim f (renderLine E σ l) (renderLine E' σ (l.reslot f)) := by
  cases l with
  | verbat s => exact Sim.pure _
  | markup ps => exact evalStrs_sim hE σ ps
  | normal ps =>
    simp only [Line.reslot, renderLine, hE.ops]
    refine Sim.bind (evalStrs_sim hE σ ps) (fun t => ?_)
    cases E'.ops.escape with
    | none => exact Sim.pure _
    | some g => exact hE.runPy _

theorem renderItems_sim (σ : StateId) (items : List TextItem) :
    Sim f (renderItems E σ items) (renderItems E' σ (items.map (TextItem.reslot f))) := by
  induction items with
  | nil => exact Sim.pure _
  | cons i is ih =>
    refine Sim.bind ?_ (fun s => Sim.bind ih (fun _ => Sim.pure _))
    cases i with
    | line l => exact Sim.bind (Sim.curIndent σ) (fun _ => Sim.bind (renderLine_sim hE σ l) (fun _ => Sim.pure _))
    | margin s => exact Sim.pure _
    | indent c => exact Sim.bind (doIndent_sim σ c) (fun _ => Sim.pure _)
    | dedent c => exact Sim.bind (doDedent_sim σ c) (fun _ => Sim.pure _)

theorem renderText_sim (σ : StateId) (lead : Nat) (items : List TextItem) :
    Sim f (renderText E σ lead items) (renderText E' σ lead (items.map (TextItem.reslot f))) :=
  Sim.bind (Sim.keepIndent σ (Sim.bind (Sim.putIndent σ _) (fun _ => renderItems_sim hE σ items))) (fun _ => Sim.pure _)

theorem unpackEnd_sim (it : Val P) : Sim f (unpackEnd E it) (unpackEnd E' it) := by
  unfold unpackEnd
  rw [hE.ops]
  refine Sim.bind (hE.runPy _) (fun o => ?_)
  cases o with
  | none => exact Sim.pure _
  | some v => exact Sim.raise _

mutual
theorem assignTarget_sim (σ : StateId) : ∀ (t : Target) (v : Val P), t.writes (Own f) → Sim f (assignTarget E σ t v) (assignTarget E' σ (t.reslot f) v)
  | .var _ _ _ none, v, h => by
    simp only [Target.reslot, assignTarget]; exact Sim.raise _
  | .var _ _ _ (some sl), v, h => by
    simp only [Target.reslot, assignTarget]
    simp only [Target.writes] at h
    exact Sim.setSlot σ sl v h
  | .many [], v, _ => by
    simp only [Target.reslot, Target.reslotAll, assignTarget, hE.ops]
    exact Sim.bind (hE.runPy _) (fun it => by simp only [unpackTargets]; exact unpackEnd_sim hE it)
  | .many [t], v, h => by
    simp only [Target.reslot, Target.reslotAll, assignTarget]
    simp only [Target.writes, Target.writesAll] at h
    exact assignTarget_sim σ t v h.1
  | .many (t1 :: t2 :: ts), v, h => by
    simp only [Target.writes] at h
    have ih : ∀ it, _ := fun it => unpackTargets_sim σ (t1 :: t2 :: ts) it h
    simp only [Target.reslotAll] at ih
    have ha : assignTarget E σ (.many (t1 :: t2 :: ts)) v =
        (runPy E (E.ops.iter v) >>= fun it => unpackTargets E σ (t1 :: t2 :: ts) it) := by
      rw [assignTarget]; simp
    have ha' : assignTarget E' σ ((Target.many (t1 :: t2 :: ts)).reslot f) v =
        (runPy E' (E'.ops.iter v) >>= fun it => unpackTargets E' σ (t1.reslot f :: t2.reslot f :: Target.reslotAll f ts) it) := by
      simp only [Target.reslot, Target.reslotAll]
      rw [assignTarget]; simp
    rw [ha, ha', hE.ops]
    exact Sim.bind (hE.runPy _) ih
theorem unpackTargets_sim (σ : StateId) : ∀ (ts : List Target) (it : Val P), Target.writesAll (Own f) ts →
    Sim f (unpackTargets E σ ts it) (unpackTargets E' σ (Target.reslotAll f ts) it)
  | [], it, _ => by simp only [Target.reslotAll, unpackTargets]; exact unpackEnd_sim hE it
  | t :: ts, it, h => by
    simp only [Target.writesAll] at h
    simp only [Target.reslotAll, unpackTargets, hE.ops]
    refine Sim.bind (hE.runPy _) (fun o => ?_)
    cases o with
    | none => exact Sim.raise _
    | some v => exact Sim.bind (assignTarget_sim σ t v h.1) (fun _ => unpackTargets_sim σ ts it h.2)
end

omit hE in
theorem evalTarget_sim (σ : StateId) (t : Target) : Sim f (evalTarget σ t : Comp P X W (Val P)) (evalTarget σ (t.reslot f)) := by
  cases t with
  | var _ _ _ _ => simp only [Target.reslot]; exact Sim.raise _
  | many ts =>
    cases ts with
    | nil => simp only [Target.reslot, Target.reslotAll]; exact Sim.raise _
    | cons t ts =>
      cases ts with
      | nil =>
        cases t with
        | var n r a b =>
          cases r with
          | true => simp only [Target.reslot, Target.reslotAll, evalTarget]; exact readName_sim σ a
          | false => simp only [Target.reslot, Target.reslotAll]; exact Sim.raise _
        | many _ => simp only [Target.reslot, Target.reslotAll]; exact Sim.raise _
      | cons t' ts =>
        simp only [Target.reslot, Target.reslotAll]
        cases t with
        | var n r a b => cases r <;> simp only [Target.reslot] <;> exact Sim.raise _
        | many _ => simp only [Target.reslot]; exact Sim.raise _

theorem evalNamed_sim (σ : StateId) (l : List (Str × Expr)) (d : Dict Str (Val P)) :
    Sim f (evalNamed E σ l d) (evalNamed E' σ (l.map (fun n => (n.1, n.2.reslot f))) d) := by
  induction l generalizing d with
  | nil => exact Sim.pure _
  | cons a l ih =>
    obtain ⟨n, e⟩ := a
    simp only [List.map_cons, evalNamed]
    refine Sim.bind (eval_sim hE σ e) (fun v => ?_)
    cases Dict.get? d n with
    | none => exact ih _
    | some old => exact Sim.bind (binOp_sim hE _ _ _) (fun _ => Sim.bind (binOp_sim hE _ _ _) (fun _ => ih _))

theorem applyTagValue_sim (σ : StateId) (v : Val P) (body : List Ref) (as : List (Val P)) (kw : Dict Str (Val P)) :
    Sim f (applyTagValue E σ v body as kw) (applyTagValue E' σ v body as kw) := by
  cases v with
  | hyper h => exact hE.expand _ _ _ _ _
  | py q =>
    simp only [applyTagValue, hE.ops]
    exact Sim.ite (Sim.bind (newNode_sim hE _ _ _ _ _ _) (fun _ => Sim.pure _)) (Sim.raise _)
  | _ => exact Sim.raise _

omit hE in
theorem readTag_sim (σ : StateId) (slot : Option Slot) : Sim f (readTag σ slot : Comp P X W (Val P)) (readTag σ (slot.map f)) := by
  cases slot with
  | none => exact Sim.raise _
  | some sl =>
    refine Sim.bind (Sim.getSlot σ sl) (fun o => ?_)
    cases o with
    | none => exact Sim.raise _
    | some v => exact Sim.pure _

theorem translTag_sim (σ : StateId) (t : TagExp) (body : List Ref) : Sim f (translTag E σ t body) (translTag E' σ (t.reslot f) body) := by
  cases t with
  | tag n slot us ns =>
    exact Sim.bind (evalList_sim hE σ us) (fun _ => Sim.bind (evalNamed_sim hE σ ns []) (fun _ =>
      Sim.bind (readTag_sim σ slot) (fun v => applyTagValue_sim hE σ v body _ _)))
  | null => exact Sim.bind (newNode_sim hE _ _ _ _ _ _) (fun _ => Sim.pure _)

theorem applyTags_sim (σ : StateId) (ts : List TagExp) (body : List Ref) :
    Sim f (applyTags E σ ts body) (applyTags E' σ (ts.map (TagExp.reslot f)) body) := by
  induction ts generalizing body with
  | nil => exact Sim.pure _
  | cons t ts ih => exact Sim.bind (translTag_sim hE σ t body) (fun b => ih b)

theorem flattenVals_sim (vs : List (Val P)) : Sim f (flattenVals E vs) (flattenVals E' vs) := by
  induction vs with
  | nil => exact Sim.pure _
  | cons v vs ih =>
    refine Sim.bind ?_ (fun _ => Sim.bind ih (fun _ => Sim.pure _))
    cases v <;> simp only [flattenVal, hE.ops] <;> first | exact Sim.pure _ | exact hE.runPy _ | exact Sim.raise _

theorem asSequence_sim (v : Val P) : Sim f (asSequence E v) (asSequence E' v) := by
  cases v <;> simp only [asSequence, hE.ops] <;> first
    | exact Sim.pure _
    | exact Sim.bind (Sim.tryExcept (hE.runPy _) (Sim.raise _)) (fun vs => flattenVals_sim hE vs)

theorem translStatic_sim (s : Str) : Sim f (translStatic s : Comp P X W (List Ref)) (translStatic s) := by
  cases s with
  | nil => exact Sim.pure _
  | cons c s => exact Sim.bind (newText_sim hE _ _) (fun _ => Sim.pure _)

theorem finishBlock_sim (m : Option Modifier) (margin : List Ref) (b : Option (List Ref)) :
    Sim f (finishBlock m margin b : Comp P X W (List Ref)) (finishBlock m margin b) := by
  unfold finishBlock
  split
  · refine Sim.ite ?_ ?_
    · refine Sim.ite ?_ ?_
      · exact Sim.bind (setIndent_sim hE _ _) (fun _ => Sim.pure _)
      · exact Sim.pure _
    · refine Sim.bind (setOutline_sim hE _ _) (fun _ => Sim.ite ?_ ?_)
      · exact Sim.bind (setIndent_sim hE _ _) (fun _ => Sim.pure _)
      · exact Sim.pure _
  · exact Sim.pure _

theorem withIndent_sim (σ : StateId) (ns : List Ref) : Sim f (withIndent σ ns : Comp P X W _) (withIndent σ ns) :=
  Sim.bind (Sim.curIndent σ) (fun _ => Sim.bind (setIndent_sim hE _ _) (fun _ => Sim.pure _))

theorem inplace_sim (σ : StateId) (t : Target) (op : Option Str) (v : Val P) : Sim f (inplace E σ t op v) (inplace E' σ (t.reslot f) op v) := by
  cases op with
  | none => exact Sim.pure _
  | some o => exact Sim.bind (evalTarget_sim σ t) (fun c => binOp_sim hE _ _ _)

/-! ### Statements -/

mutual
theorem transl_sim (σ : StateId) : ∀ s : Stmt P, s.writes (Own f) → Sim f (transl E σ s) (transl E' σ (s.reslot f))
  | .static s, _ => by
    simp only [Stmt.reslot, transl]; exact Sim.bind (translStatic_sim hE s) (fun _ => Sim.pure _)
  | .indent c, _ => by
    simp only [Stmt.reslot, transl]; exact Sim.bind (doIndent_sim σ c) (fun _ => Sim.pure _)
  | .dedent c, _ => by
    simp only [Stmt.reslot, transl]; exact Sim.bind (doDedent_sim σ c) (fun _ => Sim.pure _)
  | .line l, _ => by
    simp only [Stmt.reslot, transl]
    exact Sim.bind (renderLine_sim hE σ l) (fun _ => Sim.bind (newText_sim hE _ _) (fun _ => Sim.pure _))
  | .xblock m mo b, hw => by
    simp only [Stmt.reslot, transl]
    simp only [Stmt.writes] at hw
    exact Sim.bind (translStatic_sim hE m) (fun _ => Sim.bind (transl_sim σ b hw)
      (fun _ => Sim.bind (finishBlock_sim hE _ _ _) (fun _ => Sim.pure _)))
  | .text lead items, _ => by
    simp only [Stmt.reslot, transl]
    exact Sim.bind (renderText_sim hE σ lead items) (fun _ => Sim.bind (Sim.curIndent σ) (fun _ =>
      Sim.bind (newText_sim hE _ _) (fun _ => Sim.pure _)))
  | .comment, _ => by simp only [Stmt.reslot, transl]; exact Sim.pure _
  | .embed e, _ => by
    simp only [Stmt.reslot, transl]
    exact Sim.bind (eval_sim hE σ e) (fun v => Sim.bind (asSequence_sim hE v) (fun ns => withIndent_sim hE σ ns))
  | .struct tags b, hw => by
    simp only [Stmt.reslot, transl, ← List.map_reverse]
    simp only [Stmt.writes] at hw
    exact Sim.bind (transl_sim σ b hw) (fun _ => Sim.bind (applyTags_sim hE σ _ _) (fun ns => withIndent_sim hE σ ns))
  | .defn id n none _ _ _, _ => by
    simp only [Stmt.reslot, transl]; exact Sim.raise _
  | .defn id n (some sl) _ _ _, hw => by
    simp only [Stmt.reslot, transl]
    simp only [Stmt.writes] at hw
    exact Sim.bind (Sim.setSlot σ sl _ hw) (fun _ => Sim.pure _)
  | .imports c path items, hw => by
    simp only [Stmt.reslot, transl]
    simp only [Stmt.writes] at hw
    exact Sim.bind (translImports_sim σ items hw) (fun _ => Sim.pure _)
  | .tryBlock bs, hw => by
    simp only [Stmt.reslot, transl]
    simp only [Stmt.writes] at hw
    exact Sim.bind (tryLoop_sim (translEach_sim σ bs hw)) (fun ns => withIndent_sim hE σ ns)
  | .ifBlock cs els, hw => by
    simp only [Stmt.reslot, transl]
    simp only [Stmt.writes] at hw
    exact Sim.bind (translIf_sim σ cs hw.1 _ _ (translOpt_sim σ els hw.2)) (fun ns => withIndent_sim hE σ ns)
  | .elseClause b, hw => by
    simp only [Stmt.reslot, transl]
    simp only [Stmt.writes] at hw
    exact Sim.bind (requiredBranch_sim (translOpt_sim σ b hw)) (fun _ => Sim.pure _)
  | .whileBlock t b els, hw => by
    simp only [Stmt.reslot, transl, hE.fuel]
    simp only [Stmt.writes] at hw
    exact Sim.bind (whileLoop_sim (Sim.bind (eval_sim hE σ t) (fun v => truthOf_sim hE v)) (optBranch_sim (translOpt_sim σ b hw.1)) _ _ _)
      (fun r => Sim.bind (loopResult_sim r (translOpt_sim σ els hw.2)) (fun ns => withIndent_sim hE σ ns))
  | .forBlock t e rest, hw => by
    simp only [Stmt.reslot, transl, hE.fuel, hE.ops]
    simp only [Stmt.writes] at hw
    have hr := translEach_sim σ rest hw.2
    exact Sim.bind (eval_sim hE σ e) (fun seq => Sim.bind (hE.runPy _) (fun it => Sim.bind
      (forLoop_sim (hE.runPy _) (fun v => Sim.bind (assignTarget_sim hE σ t v hw.1) (fun _ => optBranch_sim (head_sim hr))) _ _ _)
      (fun r => Sim.bind (loopResult_sim r (lastElse_sim hr)) (fun ns => withIndent_sim hE σ ns))))
  | .exprBlock e, _ => by
    simp only [Stmt.reslot, transl]; exact Sim.bind (eval_sim hE σ e) (fun _ => Sim.pure _)
  | .assign t op e, hw => by
    simp only [Stmt.reslot, transl]
    simp only [Stmt.writes] at hw
    exact Sim.bind (eval_sim hE σ e) (fun v => Sim.bind (inplace_sim hE σ t op v) (fun v => Sim.bind
      (assignTarget_sim hE σ t v hw) (fun _ => Sim.pure _)))
  | .body ss, hw => by
    simp only [Stmt.reslot, transl]
    simp only [Stmt.writes] at hw
    exact Sim.bind (Sim.keepIndent σ (translAll_sim σ ss hw)) (fun _ => Sim.pure _)
  | .pass, _ => by simp only [Stmt.reslot, transl]; exact Sim.pure _
theorem translAll_sim (σ : StateId) : ∀ ss : List (Stmt P), Stmt.writesAll (Own f) ss → Sim f (translAll E σ ss) (translAll E' σ (Stmt.reslotAll f ss))
  | [], _ => by simp only [Stmt.reslotAll, translAll]; exact Sim.pure _
  | s :: ss, hw => by
    simp only [Stmt.reslotAll, translAll]
    simp only [Stmt.writesAll] at hw
    exact Sim.bind (transl_sim σ s hw.1) (fun _ => Sim.bind (translAll_sim σ ss hw.2) (fun _ => Sim.pure _))
theorem translEach_sim (σ : StateId) : ∀ ss : List (Stmt P), Stmt.writesAll (Own f) ss →
    SimList f (translEach E σ ss) (translEach E' σ (Stmt.reslotAll f ss))
  | [], _ => by simp only [Stmt.reslotAll, translEach]; exact .nil
  | s :: ss, hw => by
    simp only [Stmt.reslotAll, translEach]
    simp only [Stmt.writesAll] at hw
    exact .cons (Sim.bind (transl_sim σ s hw.1) (fun _ => Sim.pure _)) (translEach_sim σ ss hw.2)
theorem translIf_sim (σ : StateId) : ∀ cs : List (Expr × Option (Stmt P)), Stmt.writesClauses (Own f) cs →
    ∀ els els' : Option (Comp P X W (List Ref)), SimOpt f els els' → Sim f (translIf E σ cs els) (translIf E' σ (Stmt.reslotClauses f cs) els')
  | [], _, els, els', h => by simp only [Stmt.reslotClauses, translIf]; exact optBranch_sim h
  | (t, b) :: cs, hw, els, els', h => by
    simp only [Stmt.reslotClauses, Stmt.reslotClause, translIf, translBranch]
    simp only [Stmt.writesClauses, Stmt.writesClause] at hw
    exact Sim.bind (eval_sim hE σ t) (fun v => Sim.bind (truthOf_sim hE v) (fun c => Sim.ite
      (optBranch_sim (translOpt_sim σ b hw.1)) (translIf_sim σ cs hw.2 els els' h)))
theorem translOpt_sim (σ : StateId) : ∀ o : Option (Stmt P), Stmt.writesOpt (Own f) o → SimOpt f (translOpt E σ o) (translOpt E' σ (Stmt.reslotOpt f o))
  | .none, _ => by simp only [Stmt.reslotOpt, translOpt]; exact .none
  | some s, hw => by
    simp only [Stmt.reslotOpt, translOpt]
    simp only [Stmt.writesOpt] at hw
    exact .some (Sim.bind (transl_sim σ s hw) (fun _ => Sim.pure _))
end

/-! ### Hypertags -/

omit hE in
theorem bindPositional_reslot (as : List AttrDef) : ∀ (vs : List (Val P)) (d : Dict Str (Val P)),
    bindPositional (as.map (AttrDef.reslot f)) vs d = bindPositional as vs d := by
  induction as with
  | nil => exact fun vs d => rfl
  | cons a as ih =>
    intro vs d
    cases vs with
    | nil => rfl
    | cons v vs => simp only [List.map_cons, bindPositional, ih]; rfl

theorem bindDefaults_sim (σ : StateId) (as : List AttrDef) : ∀ d : Dict Str (Val P),
    Sim f (bindDefaults E σ as d) (bindDefaults E' σ (as.map (AttrDef.reslot f)) d) := by
  induction as with
  | nil => exact fun d => Sim.pure _
  | cons a as ih =>
    intro d
    obtain ⟨n, e, s⟩ := a
    simp only [List.map_cons, AttrDef.reslot]
    cases e with
    | none => simp only [Expr.reslotOpt, bindDefaults]; exact Sim.ite (ih d) (Sim.raise _)
    | some e =>
      simp only [Expr.reslotOpt, bindDefaults]
      exact Sim.ite (ih d) (Sim.bind (eval_sim hE σ e) (fun v => ih _))

omit hE in
theorem assignAttr_sim (σ : StateId) (slot : Option Slot) (w : Own f slot) (v : Val P) :
    Sim f (assignAttr σ slot v : Comp P X W Unit) (assignAttr σ (slot.map f) v) := by
  cases slot with
  | none => exact Sim.raise _
  | some sl => exact Sim.setSlot σ sl v w

omit hE in
theorem assignAttrs_sim (σ : StateId) (as : List AttrDef) (w : ∀ a ∈ as, Own f a.slot) (l : List (Str × Val P)) :
    Sim f (assignAttrs σ as l : Comp P X W Unit) (assignAttrs σ (as.map (AttrDef.reslot f)) l) := by
  induction l with
  | nil => exact Sim.pure _
  | cons x l ih =>
    obtain ⟨n, v⟩ := x
    simp only [assignAttrs, List.find?_map]
    rw [show ((fun a : AttrDef => decide (a.name = n)) ∘ AttrDef.reslot f) = (fun a : AttrDef => decide (a.name = n)) from rfl]
    cases h : as.find? (fun a => decide (a.name = n)) with
    | none => exact Sim.bind (Sim.raise _) (fun _ => ih)
    | some a => exact Sim.bind (assignAttr_sim σ a.slot (w a (List.mem_of_find?_eq_some h)) v) (fun _ => ih)

omit hE in
theorem isAttr_reslot (d : DefInfo P) (n : Str) : (d.reslot f).isAttr n = d.isAttr n := by
  simp only [DefInfo.isAttr, DefInfo.reslot, List.any_map]
  cases d.bodyAttr <;> rfl

omit hE in
theorem domAttrs_reslot (d : DefInfo P) (vs : List (Val P)) (kw : Dict Str (Val P)) : domAttrs (d.reslot f) vs kw = domAttrs d vs kw := by
  simp only [domAttrs, DefInfo.reslot, List.map_map]
  rfl

theorem assignBody_sim (σ : StateId) (a : Option AttrDef) (w : ∀ x, a = some x → Own f x.slot) (b : Val P) :
    Sim f (assignBody E σ a b) (assignBody E' σ (a.map (AttrDef.reslot f)) b) := by
  cases a with
  | none => exact Sim.bind (truthOf_sim hE b) (fun c => Sim.ite (Sim.raise _) (Sim.pure _))
  | some a => exact assignAttr_sim σ a.slot (w a rfl) b

theorem appendAttrs_sim (σ : StateId) (d : DefInfo P) (w : d.writes (Own f)) (b : Val P) (vs : List (Val P)) (kw : Dict Str (Val P)) :
    Sim f (appendAttrs E σ d b vs kw) (appendAttrs E' σ (d.reslot f) b vs kw) := by
  unfold appendAttrs
  simp only [isAttr_reslot, domAttrs_reslot]
  simp only [DefInfo.reslot, List.length_map, bindPositional_reslot]
  rw [show (d.bodyAttr.map (AttrDef.reslot f)).any (fun a => (Dict.get? kw a.name).isSome) = d.bodyAttr.any (fun a => (Dict.get? kw a.name).isSome) by
    cases d.bodyAttr <;> rfl]
  refine Sim.ite (Sim.raise _) (Sim.ite (Sim.raise _) (Sim.ite (Sim.raise _) ?_))
  cases bindPositional d.attrs vs kw with
  | none => exact Sim.raise _
  | some kw1 =>
    exact Sim.bind (bindDefaults_sim hE σ d.attrs kw1) (fun kw2 => Sim.bind (assignAttrs_sim σ d.attrs w.2.1 kw2) (fun _ =>
      Sim.bind (assignBody_sim hE σ d.bodyAttr w.1 b) (fun _ => Sim.pure _)))

theorem firstInline_sim (ns : List Ref) : Sim f (firstInline ns : Comp P X W Unit) (firstInline ns) := by
  cases ns with
  | nil => exact Sim.pure _
  | cons r rs => exact setOutline_sim hE false r

theorem expandDef_sim (id : DefId) (d : DefInfo P) (w : d.writes (Own f)) (b : Val P) (vs : List (Val P)) (kw : Dict Str (Val P)) (σ : StateId) :
    Sim f (expandDef E id d b vs kw σ) (expandDef E' id (d.reslot f) b vs kw σ) :=
  Sim.bind (appendAttrs_sim hE σ d w b vs kw) (fun _ => Sim.bind (transl_sim hE σ d.body w.2.2) (fun _ =>
    Sim.bind (Sim.curIndent σ) (fun _ => Sim.bind (setIndent_sim hE _ _) (fun _ => Sim.bind (firstInline_sim hE _) (fun _ =>
      Sim.bind (newNode_sim hE _ _ _ _ _ _) (fun _ => Sim.pure _))))))

theorem expandHyper_sim {Γ Γ' : DefId → DefInfo P} (hΓ : ∀ id, (Γ id).writes (Own f) ∧ Γ' id = (Γ id).reslot f) :
    ∀ (h : HVal) (b : Val P) (vs : List (Val P)) (kw : Dict Str (Val P)) (σ : StateId),
      Sim f (expandHyper E Γ h b vs kw σ) (expandHyper E' Γ' h b vs kw σ)
  | .imported h st, b, vs, kw, σ => by simp only [expandHyper]; exact expandHyper_sim hΓ h b vs kw st
  | .defn id, b, vs, kw, σ => by
    simp only [expandHyper]
    rw [(hΓ id).2]
    exact expandDef_sim hE id (Γ id) (hΓ id).1 b vs kw σ

theorem embeddedBody_sim (v : Val P) : Sim f (embeddedBody E v) (embeddedBody E' v) := by
  cases v <;> simp only [embeddedBody] <;> first
    | exact Sim.pure _
    | exact Sim.bind (strOf_sim hE _) (fun s => Sim.bind (newText_sim hE _ _) (fun _ => Sim.pure _))

theorem callEmbedded_sim (c : Callback P) : Sim f (callEmbedded E c) (callEmbedded E' c) := by
  unfold callEmbedded
  rw [hE.ops]
  exact Sim.bind (embeddedBody_sim hE _) (fun b => Sim.bind (hE.expand _ _ _ _ _) (fun dom => Sim.bind (setIndent_sim hE _ _) (fun _ =>
    Sim.bind (hE.runPy _) (fun _ => Sim.pure _))))

end

theorem envAt_sim (ops : PyOps P X W) {Γ Γ' : DefId → DefInfo P} (hΓ : ∀ id, (Γ id).writes (Own f) ∧ Γ' id = (Γ id).reslot f) :
    ∀ n, SimEnv f (envAt ops Γ n) (envAt ops Γ' n) := by
  intro n
  induction n with
  | zero =>
    simp only [envAt]
    exact ⟨rfl, rfl, fun _ _ _ _ _ => Sim.timeout, fun _ => Sim.timeout⟩
  | succ n ih =>
    simp only [envAt]
    exact ⟨rfl, rfl, expandHyper_sim ih hΓ, callEmbedded_sim ih⟩

end
end Verif
