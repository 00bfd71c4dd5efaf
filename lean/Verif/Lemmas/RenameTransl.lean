import Verif.Spec.Rename
import Verif.Lemmas.Comp

/-! Translation of scripts with new names. -/

namespace Verif
open Py

section
variable {P X W : Type} (E : Env P X W) (f : Renaming) (σ : StateId)

mutual
theorem eval_rename : ∀ e : Expr, eval E σ (e.rename f) = eval E σ e
  | .root _ e => by simp only [Expr.rename, eval]; rw [eval_rename e]
  | .tagUse _ _ => by simp only [Expr.rename, eval]
  | .varUse _ _ => by simp only [Expr.rename, eval]
  | .factor a ts _ => by
    simp only [Expr.rename, eval]
    rw [eval_rename a, show applyTails E σ (Tail.renameAll f ts) = applyTails E σ ts from funext (applyTails_rename ts)]
  | .chain _ a ops es => by simp only [Expr.rename, eval, eval_rename a, evalChain_rename es]
  | .concat es => by simp only [Expr.rename, eval, evalStrs_rename es]
  | .bits op a es => by simp only [Expr.rename, eval, eval_rename a, evalBits_rename es]
  | .pipeline a es => by simp only [Expr.rename, eval, eval_rename a, evalPipe_rename es]
  | .notTest _ e => by simp only [Expr.rename, eval, eval_rename e]
  | .andTest a es => by simp only [Expr.rename, eval, eval_rename a, evalAnd_rename es]
  | .orTest a es => by simp only [Expr.rename, eval, eval_rename a, evalOr_rename es]
  | .ifElse x t .none => by simp only [Expr.rename, Expr.renameOpt, eval, eval_rename x, eval_rename t]
  | .ifElse x t (some y) => by simp only [Expr.rename, Expr.renameOpt, eval, eval_rename x, eval_rename t, eval_rename y]
  | .list es => by simp only [Expr.rename, eval, evalList_rename es]
  | .tuple es => by simp only [Expr.rename, eval, evalList_rename es]
  | .set es => by simp only [Expr.rename, eval, evalList_rename es]
  | .dict es => by simp only [Expr.rename, eval, evalList_rename es]
  | .format es => by simp only [Expr.rename, eval, evalStrs_rename es]
  | .static _ => by simp only [Expr.rename]
  | .strLit _ => by simp only [Expr.rename]
  | .number _ => by simp only [Expr.rename]
  | .boolean _ => by simp only [Expr.rename]
  | .noneLit => by simp only [Expr.rename]
  | .sliceNone => by simp only [Expr.rename]
theorem evalList_rename : ∀ es : List Expr, evalList E σ (Expr.renameAll f es) = evalList E σ es
  | [] => by simp only [Expr.renameAll]
  | e :: es => by simp only [Expr.renameAll, evalList, eval_rename e, evalList_rename es]
theorem evalChain_rename : ∀ (es : List Expr) (ops : List Str) (v : Val P), evalChain E σ ops (Expr.renameAll f es) v = evalChain E σ ops es v
  | [], ops, v => by simp only [Expr.renameAll]
  | e :: es, [], v => by simp only [Expr.renameAll, evalChain]
  | e :: es, op :: ops, v => by simp only [Expr.renameAll, evalChain, eval_rename e, evalChain_rename es]
theorem evalStrs_rename : ∀ es : List Expr, evalStrs E σ (Expr.renameAll f es) = evalStrs E σ es
  | [] => by simp only [Expr.renameAll]
  | e :: es => by simp only [Expr.renameAll, evalStrs, eval_rename e, evalStrs_rename es]
theorem evalBits_rename : ∀ (es : List Expr) (op : Str) (v : Val P), evalBits E σ op (Expr.renameAll f es) v = evalBits E σ op es v
  | [], op, v => by simp only [Expr.renameAll]
  | e :: es, op, v => by simp only [Expr.renameAll, evalBits, eval_rename e, evalBits_rename es]
theorem evalPipe_rename : ∀ (es : List Expr) (v : Val P), evalPipe E σ (Expr.renameAll f es) v = evalPipe E σ es v
  | [], v => by simp only [Expr.renameAll]
  | e :: es, v => by simp only [Expr.renameAll, evalPipe, eval_rename e, evalPipe_rename es]
theorem evalAnd_rename : ∀ (es : List Expr) (v : Val P), evalAnd E σ (Expr.renameAll f es) v = evalAnd E σ es v
  | [], v => by simp only [Expr.renameAll]
  | e :: es, v => by simp only [Expr.renameAll, evalAnd, eval_rename e, evalAnd_rename es]
theorem evalOr_rename : ∀ (es : List Expr) (v : Val P), evalOr E σ (Expr.renameAll f es) v = evalOr E σ es v
  | [], v => by simp only [Expr.renameAll]
  | e :: es, v => by simp only [Expr.renameAll, evalOr, eval_rename e, evalOr_rename es]
theorem applyTails_rename : ∀ (ts : List Tail) (v : Val P), applyTails E σ (Tail.renameAll f ts) v = applyTails E σ ts v
  | [], v => by simp only [Tail.renameAll]
  | t :: ts, v => by simp only [Tail.renameAll, applyTails, applyTail_rename t, applyTails_rename ts]
theorem applyTail_rename : ∀ (t : Tail) (v : Val P), applyTail E σ (t.rename f) v = applyTail E σ t v
  | .call _ es, v => by simp only [Tail.rename, applyTail, evalList_rename es]
  | .partialCall _ [], v => by simp only [Tail.rename, Expr.renameAll]
  | .partialCall _ (e :: es), v => by
    have := evalList_rename (e :: es)
    simp only [Expr.renameAll] at this
    simp only [Tail.rename, applyTail, Expr.renameAll, List.isEmpty_cons, this]
  | .index es, v => by simp only [Tail.rename, applyTail, evalList_rename es]
  | .member _, v => by simp only [Tail.rename]
end

theorem renderLine_rename (l : Line) : renderLine E σ (l.rename f) = renderLine E σ l := by
  cases l <;> simp only [Line.rename, renderLine, evalStrs_rename]

theorem renderItem_rename (i : TextItem) : renderItem E σ (i.rename f) = renderItem E σ i := by
  cases i <;> simp only [TextItem.rename, renderItem, renderLine_rename]

theorem renderItems_rename (is : List TextItem) : renderItems E σ (is.map (TextItem.rename f)) = renderItems E σ is := by
  induction is with
  | nil => rfl
  | cons i is ih => simp only [List.map_cons, renderItems, renderItem_rename, ih]

mutual
theorem assignTarget_rename : ∀ (t : Target) (v : Val P), assignTarget E σ (t.rename f) v = assignTarget E σ t v
  | .var _ _ _ _, v => by simp only [Target.rename, assignTarget]
  | .many [], v => by simp only [Target.rename, Target.renameAll]
  | .many [t], v => by simp only [Target.rename, Target.renameAll, assignTarget, assignTarget_rename t]
  | .many (t :: t' :: ts), v => by
    have := unpackTargets_rename (t :: t' :: ts)
    simp only [Target.renameAll] at this
    simp only [Target.rename, Target.renameAll, assignTarget, this]
theorem unpackTargets_rename : ∀ (ts : List Target) (v : Val P), unpackTargets E σ (Target.renameAll f ts) v = unpackTargets E σ ts v
  | [], v => by simp only [Target.renameAll]
  | t :: ts, v => by
    simp only [Target.renameAll, unpackTargets]
    refine congrArg _ (funext fun o => ?_)
    cases o with
    | none => rfl
    | some w => simp only [assignTarget_rename t, unpackTargets_rename ts]
end

theorem evalTarget_rename (t : Target) : (evalTarget σ (t.rename f) : Comp P X W _) = evalTarget σ t := by
  cases t with
  | var _ _ _ _ => simp only [Target.rename]; rfl
  | many ts =>
    cases ts with
    | nil => simp only [Target.rename, Target.renameAll]
    | cons t ts =>
      cases ts with
      | nil =>
        cases t with
        | var n r a b => cases r <;> simp only [Target.rename, Target.renameAll] <;> rfl
        | many _ => simp only [Target.rename, Target.renameAll]; rfl
      | cons t' ts =>
        simp only [Target.rename, Target.renameAll]
        cases t with
        | var n r a b => cases r <;> simp only [Target.rename] <;> rfl
        | many _ => simp only [Target.rename]; rfl

theorem evalNamed_rename (ns : List (Str × Expr)) : ∀ d : Dict Str (Val P),
    evalNamed E σ (ns.map (fun n => (n.1, n.2.rename f))) d = evalNamed E σ ns d := by
  induction ns with
  | nil => exact fun d => rfl
  | cons n ns ih =>
    intro d
    obtain ⟨n, e⟩ := n
    simp only [List.map_cons, evalNamed, eval_rename]
    refine congrArg _ (funext fun v => ?_)
    cases Dict.get? d n with
    | none => exact ih _
    | some old =>
      simp only
      refine congrArg _ (funext fun t => congrArg _ (funext fun new => ih _))

theorem translTag_rename (t : TagExp) (b : List Ref) : translTag E σ (t.rename f) b = translTag E σ t b := by
  cases t with
  | null => rfl
  | tag n s us ns => simp only [TagExp.rename, translTag, evalList_rename, evalNamed_rename]

theorem applyTags_rename (ts : List TagExp) : ∀ b : List Ref, applyTags E σ (ts.map (TagExp.rename f)) b = applyTags E σ ts b := by
  induction ts with
  | nil => exact fun b => rfl
  | cons t ts ih => intro b; simp only [List.map_cons, applyTags, translTag_rename, ih]

theorem translImports_rename (is : List (ImportItem P)) : (translImports σ (is.map (ImportItem.rename f)) : Comp P X W _) = translImports σ is := by
  induction is with
  | nil => rfl
  | cons i is ih =>
    simp only [List.map_cons, translImports, ih]
    cases i <;> rfl

theorem inplace_rename (t : Target) (op : Option Str) (v : Val P) : inplace E σ (t.rename f) op v = inplace E σ t op v := by
  cases op with
  | none => rfl
  | some op => simp only [inplace, evalTarget_rename]

theorem isElse_rename (s : Stmt P) : (s.rename f).isElse = s.isElse := by
  cases s <;> simp only [Stmt.rename] <;> rfl

theorem lastElse_rename (ss : List (Stmt P)) (cs : List (Comp P X W (List Ref))) : lastElse (Stmt.renameAll f ss) cs = lastElse ss cs := by
  have : (Stmt.renameAll f ss) = ss.map (Stmt.rename f) := by
    induction ss with
    | nil => simp only [Stmt.renameAll, List.map_nil]
    | cons s ss ih => simp only [Stmt.renameAll, List.map_cons, ih]
  unfold lastElse
  rw [this, List.getLast?_map]
  cases ss.getLast? with
  | none => rfl
  | some s => simp only [Option.map_some, Option.any_some, isElse_rename]

mutual
theorem transl_rename : ∀ s : Stmt P, transl E σ (s.rename f) = transl E σ s
  | .static _ => by simp only [Stmt.rename]
  | .indent _ => by simp only [Stmt.rename]
  | .dedent _ => by simp only [Stmt.rename]
  | .comment => by simp only [Stmt.rename]
  | .pass => by simp only [Stmt.rename]
  | .line _ => by simp only [Stmt.rename, transl, renderLine_rename]
  | .xblock _ _ b => by simp only [Stmt.rename, transl, transl_rename b]
  | .text _ _ => by simp only [Stmt.rename, transl, renderText, renderItems_rename]
  | .embed _ => by simp only [Stmt.rename, transl, eval_rename]
  | .struct _ b => by simp only [Stmt.rename, transl, transl_rename b, ← List.map_reverse, applyTags_rename]
  | .defn _ _ _ _ _ _ => by simp only [Stmt.rename, transl]
  | .imports _ _ _ => by simp only [Stmt.rename, transl, translImports_rename]
  | .tryBlock bs => by simp only [Stmt.rename, transl, translEach_rename bs]
  | .ifBlock cs els => by simp only [Stmt.rename, transl, translIf_rename cs, translOpt_rename els]
  | .elseClause b => by simp only [Stmt.rename, transl, translOpt_rename b]
  | .whileBlock t b els => by simp only [Stmt.rename, transl, eval_rename, translOpt_rename b, translOpt_rename els]
  | .forBlock t e rest => by
    simp only [Stmt.rename, transl, eval_rename, assignTarget_rename, translEach_rename rest, lastElse_rename]
  | .exprBlock _ => by simp only [Stmt.rename, transl, eval_rename]
  | .assign _ _ _ => by simp only [Stmt.rename, transl, eval_rename, inplace_rename, assignTarget_rename]
  | .body ss => by simp only [Stmt.rename, transl, translAll_rename ss]
theorem translAll_rename : ∀ ss : List (Stmt P), translAll E σ (Stmt.renameAll f ss) = translAll E σ ss
  | [] => by simp only [Stmt.renameAll]
  | s :: ss => by simp only [Stmt.renameAll, translAll, transl_rename s, translAll_rename ss]
theorem translEach_rename : ∀ ss : List (Stmt P), translEach E σ (Stmt.renameAll f ss) = translEach E σ ss
  | [] => by simp only [Stmt.renameAll]
  | s :: ss => by simp only [Stmt.renameAll, translEach, transl_rename s, translEach_rename ss]
theorem translIf_rename : ∀ (cs : List (Expr × Option (Stmt P))) (els : Option (Comp P X W (List Ref))),
    translIf E σ (Stmt.renameClauses f cs) els = translIf E σ cs els
  | [], els => by simp only [Stmt.renameClauses]
  | (t, b) :: cs, els => by
    simp only [Stmt.renameClauses, Stmt.renameClause, translIf, translBranch, eval_rename, translOpt_rename b, translIf_rename cs]
theorem translOpt_rename : ∀ o : Option (Stmt P), translOpt E σ (Stmt.renameOpt f o) = translOpt E σ o
  | .none => by simp only [Stmt.renameOpt]
  | some s => by simp only [Stmt.renameOpt, translOpt, transl_rename s]
end

/-! ### Hypertags -/

theorem bindPositional_rename (as : List AttrDef) : ∀ (vs : List (Val P)) (d : Dict Str (Val P)),
    bindPositional (as.map (AttrDef.rename f)) vs d = bindPositional as vs d := by
  induction as with
  | nil => exact fun vs d => rfl
  | cons a as ih =>
    intro vs d
    cases vs with
    | nil => rfl
    | cons v vs => simp only [List.map_cons, bindPositional, ih]; rfl

theorem bindDefaults_rename (as : List AttrDef) : ∀ d : Dict Str (Val P),
    bindDefaults E σ (as.map (AttrDef.rename f)) d = bindDefaults E σ as d := by
  induction as with
  | nil => exact fun d => rfl
  | cons a as ih =>
    intro d
    obtain ⟨n, e, s⟩ := a
    simp only [List.map_cons, AttrDef.rename]
    cases e with
    | none => simp only [Expr.renameOpt, bindDefaults, ih]
    | some e => simp only [Expr.renameOpt, bindDefaults, ih, eval_rename]

theorem assignAttrs_rename (as : List AttrDef) (l : List (Str × Val P)) :
    (assignAttrs σ (as.map (AttrDef.rename f)) l : Comp P X W _) = assignAttrs σ as l := by
  induction l with
  | nil => rfl
  | cons x l ih =>
    obtain ⟨n, v⟩ := x
    simp only [assignAttrs, ih, List.find?_map]
    rw [show ((fun a : AttrDef => decide (a.name = n)) ∘ AttrDef.rename f) = (fun a : AttrDef => decide (a.name = n)) from rfl]
    cases as.find? (fun a => decide (a.name = n)) <;> rfl

theorem isAttr_rename (d : DefInfo P) (n : Str) : (d.rename f).isAttr n = d.isAttr n := by
  simp only [DefInfo.isAttr, DefInfo.rename, List.any_map]
  cases d.bodyAttr <;> rfl

theorem assignBody_rename (a : Option AttrDef) (b : Val P) : assignBody E σ (a.map (AttrDef.rename f)) b = assignBody E σ a b := by
  cases a <;> rfl

theorem domAttrs_rename (d : DefInfo P) (vs : List (Val P)) (kw : Dict Str (Val P)) : domAttrs (d.rename f) vs kw = domAttrs d vs kw := by
  simp only [domAttrs, DefInfo.rename, List.map_map]
  rfl

theorem appendAttrs_rename (d : DefInfo P) (b : Val P) (vs : List (Val P)) (kw : Dict Str (Val P)) :
    appendAttrs E σ (d.rename f) b vs kw = appendAttrs E σ d b vs kw := by
  unfold appendAttrs
  simp only [isAttr_rename, domAttrs_rename]
  simp only [DefInfo.rename, List.length_map, bindPositional_rename, bindDefaults_rename, assignAttrs_rename, assignBody_rename]
  rw [show (d.bodyAttr.map (AttrDef.rename f)).any (fun a => (Dict.get? kw a.name).isSome) = d.bodyAttr.any (fun a => (Dict.get? kw a.name).isSome) by
    cases d.bodyAttr <;> rfl]

theorem expandDef_rename (id : DefId) (d : DefInfo P) (b : Val P) (vs : List (Val P)) (kw : Dict Str (Val P)) :
    expandDef E id (d.rename f) b vs kw σ = expandDef E id d b vs kw σ := by
  unfold expandDef
  simp only [appendAttrs_rename]
  simp only [DefInfo.rename, transl_rename]

end

section
variable {P X W : Type} (f : Renaming)

theorem expandHyper_rename (E : Env P X W) (Γ Γ' : DefId → DefInfo P) (h : ∀ id, Γ' id = Γ id ∨ Γ' id = (Γ id).rename f) :
    ∀ (v : HVal) (b : Val P) (vs : List (Val P)) (kw : Dict Str (Val P)) (σ : StateId),
      expandHyper E Γ' v b vs kw σ = expandHyper E Γ v b vs kw σ
  | .imported v st, b, vs, kw, σ => by simp only [expandHyper]; exact expandHyper_rename E Γ Γ' h v b vs kw st
  | .defn id, b, vs, kw, σ => by
    simp only [expandHyper]
    rcases h id with h | h
    · rw [h]
    · rw [h, expandDef_rename]

theorem envAt_rename (ops : PyOps P X W) (Γ Γ' : DefId → DefInfo P) (h : ∀ id, Γ' id = Γ id ∨ Γ' id = (Γ id).rename f) :
    ∀ n, envAt ops Γ' n = envAt ops Γ n
  | 0 => rfl
  | n + 1 => by
    simp only [envAt]
    rw [envAt_rename ops Γ Γ' h n]
    congr 1
    funext v b vs kw σ
    exact expandHyper_rename f _ Γ Γ' h v b vs kw σ

theorem readSymbols_rename (σ : StateId) (l : List (Str × Slot)) : (readSymbols σ (renameDict f l) : Comp P X W _) =
    (readSymbols σ l >>= fun d => pure (renameDict f d)) := by
  induction l with
  | nil => rfl
  | cons a l ih =>
    obtain ⟨s, sl⟩ := a
    have e : renameDict f ((s, sl) :: l) = (f.sym s, sl) :: renameDict f l := rfl
    rw [e]
    simp only [readSymbols, ih]
    rw [Comp.bind_assoc]
    refine congrArg _ (funext fun v => ?_)
    simp only [Comp.bind_assoc]
    refine congrArg _ (funext fun d => ?_)
    cases v with
    | none => rfl
    | some v => rfl

/-- The same nodes; the exported symbols have new names. -/
theorem translDocument_rename (E : Env P X W) (σ : StateId) (doc : Document P) : translDocument E σ (doc.rename f) =
    (translDocument E σ doc >>= fun x => pure (x.1, renameDict f x.2)) := by
  unfold translDocument
  simp only [Document.rename, translAll_rename, readSymbols_rename, Comp.bind_assoc, Comp.pure_bind]

end
end Verif
