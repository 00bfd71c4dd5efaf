import Verif.Spec.Rename
import Verif.Lemmas.Mentions

/-! Analysis of scripts with new names. -/

set_option linter.unusedSectionVars false

namespace Verif
open Py Spec

section
variable {P I α β : Type}

/-- The symbols in a context, with new names. -/
def Ctx.rename (f : Renaming) (c : Ctx) : Ctx := { c with binds := renameDict f c.binds }

/-- The result with new names. -/
def Renaming.res (f : Renaming) (φ : α → β) : Except (AErr I) α → Except (AErr I) β
  | .ok a => .ok (φ a)
  | .error e => .error (e.rename f)

/-- The second result is the first one with new names. -/
def Maps (f : Renaming) (φ : α → β) (r : Except (AErr I) α) (r' : Except (AErr I) β) : Prop := r' = f.res φ r

/-- Both the tree and the context have new names. -/
def Renaming.both (f : Renaming) (φ : α → β) : α × Ctx → β × Ctx := fun x => (φ x.1, x.2.rename f)

section
variable {f : Renaming}

theorem Maps.pure {φ : α → β} {a : α} {b : β} (h : b = φ a) : Maps f φ (Pure.pure a : Except (AErr I) _) (Pure.pure b) := by
  subst h; rfl

theorem Maps.error {φ : α → β} {e e' : AErr I} (h : e' = e.rename f) : Maps f φ (.error e) (.error e') := by subst h; rfl

theorem Maps.bind {γ δ : Type} {φ : α → β} {ψ : γ → δ} {r : Except (AErr I) α} {r' : Except (AErr I) β}
    {k : α → Except (AErr I) γ} {k' : β → Except (AErr I) δ} (h : Maps f φ r r') (hk : ∀ a, Maps f ψ (k a) (k' (φ a))) :
    Maps f ψ (r >>= k) (r' >>= k') := by
  unfold Maps at h
  subst h
  cases r with
  | error e => rfl
  | ok a => exact hk a

theorem Maps.bindPost {γ δ : Type} {φ : α → β} {ψ : γ → δ} {Q : α → Prop} {r : Except (AErr I) α} {r' : Except (AErr I) β}
    {k : α → Except (AErr I) γ} {k' : β → Except (AErr I) δ} (h : Maps f φ r r') (hq : Post Q r) (hk : ∀ a, Q a → Maps f ψ (k a) (k' (φ a))) :
    Maps f ψ (r >>= k) (r' >>= k') := by
  unfold Maps at h
  subst h
  cases r with
  | error e => rfl
  | ok a => exact hk a (hq a rfl)

/-! ### Symbols -/

section
variable (hf : f.Good)
include hf

theorem sym_inj : Function.Injective f.sym := by
  intro a b h
  cases a with
  | nil =>
    cases b with
    | nil => rfl
    | cons c n => simp only [Renaming.sym] at h; split at h <;> (try split at h) <;> cases h
  | cons c n =>
    cases b with
    | nil => simp only [Renaming.sym] at h; split at h <;> (try split at h) <;> cases h
    | cons d k =>
      simp only [Renaming.sym] at h
      by_cases hc : c = '$'
      · by_cases hd : d = '$'
        · rw [if_pos hc, if_pos hd] at h
          rw [hc, hd, hf.var (List.cons.inj h).2]
        · rw [if_pos hc, if_neg hd] at h
          split at h
          · exact absurd (List.cons.inj h).1 (by decide)
          · exact absurd (List.cons.inj h).1.symm hd
      · by_cases hd : d = '$'
        · rw [if_neg hc, if_pos hd] at h
          split at h
          · exact absurd (List.cons.inj h).1 (by decide)
          · exact absurd (List.cons.inj h).1 hc
        · rw [if_neg hc, if_neg hd] at h
          by_cases hc' : c = '%'
          · by_cases hd' : d = '%'
            · rw [if_pos hc', if_pos hd'] at h
              rw [hc', hd', hf.tag (List.cons.inj h).2]
            · rw [if_pos hc', if_neg hd'] at h
              exact absurd (List.cons.inj h).1.symm hd'
          · by_cases hd' : d = '%'
            · rw [if_neg hc', if_pos hd'] at h
              exact absurd (List.cons.inj h).1 hc'
            · rw [if_neg hc', if_neg hd'] at h
              exact h

theorem validSymbol_sym (s : Str) : validSymbol (f.sym s) = validSymbol s := by
  cases s with
  | nil => rfl
  | cons c n =>
    simp only [Renaming.sym]
    split
    · rename_i h
      subst h
      cases n with
      | nil => rw [(hf.varNil []).2 rfl]
      | cons d n =>
        cases hv : f.var (d :: n) with
        | nil => exact absurd ((hf.varNil _).1 hv) (by simp)
        | cons x y => rfl
    · split
      · rename_i h
        subst h
        cases n with
        | nil => rw [(hf.tagNil []).2 rfl]
        | cons d n =>
          cases hv : f.tag (d :: n) with
          | nil => exact absurd ((hf.tagNil _).1 hv) (by simp)
          | cons x y => rfl
      · rfl

theorem lookupBind_rename (b : List (Str × SlotInfo)) (s : Str) : lookupBind (renameDict f b) (f.sym s) = lookupBind b s := by
  induction b with
  | nil => rfl
  | cons a b ih =>
    obtain ⟨k, v⟩ := a
    simp only [renameDict, List.map_cons, lookupBind]
    rw [show lookupBind (b.map (fun x => (f.sym x.1, x.2))) (f.sym s) = lookupBind b s from ih]
    cases lookupBind b s with
    | some w => rfl
    | none =>
      simp only
      by_cases h : k = s
      · rw [if_pos h, if_pos (by rw [h])]
      · rw [if_neg h, if_neg (fun e => h (sym_inj hf e))]

theorem Dict.set_rename {V : Type} (d : Dict Str V) (k : Str) (v : V) :
    Dict.set (renameDict f d) (f.sym k) v = renameDict f (Dict.set d k v) := by
  induction d with
  | nil => rfl
  | cons a d ih =>
    obtain ⟨k', v'⟩ := a
    simp only [renameDict, List.map_cons, Dict.set]
    by_cases h : k' = k
    · rw [if_pos h, if_pos (by rw [h])]; rfl
    · rw [if_neg h, if_neg (fun e => h (sym_inj hf e))]
      simp only [List.map_cons]
      exact congrArg _ ih

theorem Dict.update_rename {V : Type} (l : List (Str × V)) : ∀ d : Dict Str V,
    Dict.update (renameDict f d) (renameDict f l) = renameDict f (Dict.update d l) := by
  induction l with
  | nil => exact fun d => rfl
  | cons a l ih =>
    intro d
    obtain ⟨k, v⟩ := a
    simp only [renameDict, List.map_cons, Dict.update]
    rw [show Dict.set (d.map (fun x => (f.sym x.1, x.2))) (f.sym k) v = renameDict f (Dict.set d k v) from Dict.set_rename hf d k v]
    exact ih _

omit hf in
theorem sym_var (n : Str) : f.sym ('$' :: n) = '$' :: f.var n := rfl
omit hf in
theorem sym_tag (n : Str) : f.sym ('%' :: n) = '%' :: f.tag n := rfl

omit hf in
theorem renamed_sym (sym : Str) (ren : Option Str) : renamed sym (renameAs f sym ren) = f.sym (renamed sym ren) ∨ 
    (validSymbol (renamed sym ren) = false ∧ renamed sym (renameAs f sym ren) = renamed sym ren) := by
  cases sym with
  | nil => cases ren <;> exact .inl rfl
  | cons c n =>
    simp only [renameAs]
    by_cases h1 : c = '$'
    · subst h1
      left
      cases ren <;> rfl
    · rw [if_neg h1]
      by_cases h2 : c = '%'
      · subst h2
        left
        cases ren <;> rfl
      · rw [if_neg h2]
        right
        refine ⟨?_, rfl⟩
        cases ren with
        | none =>
          cases n with
          | nil => rfl
          | cons d n => simp [renamed, validSymbol, h1, h2]
        | some r =>
          cases r with
          | nil => rfl
          | cons d n => simp [renamed, validSymbol, h1, h2]

/-! ### Expressions -/

theorem resolve_rename (b : List (Str × SlotInfo)) (s : Str) (e e' : AErr I) (he : e' = e.rename f) :
    Maps f id (resolve b s e) (resolve (renameDict f b) (f.sym s) e') := by
  unfold resolve
  rw [lookupBind_rename hf]
  cases lookupBind b s with
  | none => exact .error he
  | some s => rfl

mutual
theorem analyseExpr_rename (b : List (Str × SlotInfo)) : ∀ e : Expr,
    Maps f (Expr.rename f) (analyseExpr b e : Except (AErr I) _) (analyseExpr (renameDict f b) (e.rename f))
  | .root _ e => by
    simp only [analyseExpr, Expr.rename]
    exact (analyseExpr_rename b e).bind (fun _ => .pure (by simp only [Expr.rename]))
  | .tagUse s _ => by
    simp only [analyseExpr, Expr.rename]
    exact (resolve_rename hf b s _ _ rfl).bind (fun _ => .pure (by simp only [Expr.rename, id]))
  | .varUse n _ => by
    simp only [analyseExpr, Expr.rename]
    exact (resolve_rename hf b ('$' :: n) _ _ rfl).bind (fun _ => .pure (by simp only [Expr.rename, id]))
  | .factor a ts _ => by
    simp only [analyseExpr, Expr.rename]
    exact (analyseExpr_rename b a).bind (fun _ => (analyseTails_rename b ts).bind (fun _ => .pure (by simp only [Expr.rename])))
  | .chain _ a _ es => by
    simp only [analyseExpr, Expr.rename]
    exact (analyseExpr_rename b a).bind (fun _ => (analyseExprs_rename b es).bind (fun _ => .pure (by simp only [Expr.rename])))
  | .concat es => by
    simp only [analyseExpr, Expr.rename]
    exact (analyseExprs_rename b es).bind (fun _ => .pure (by simp only [Expr.rename]))
  | .bits _ a es => by
    simp only [analyseExpr, Expr.rename]
    exact (analyseExpr_rename b a).bind (fun _ => (analyseExprs_rename b es).bind (fun _ => .pure (by simp only [Expr.rename])))
  | .pipeline a es => by
    simp only [analyseExpr, Expr.rename]
    exact (analyseExpr_rename b a).bind (fun _ => (analyseExprs_rename b es).bind (fun _ => .pure (by simp only [Expr.rename])))
  | .notTest _ e => by
    simp only [analyseExpr, Expr.rename]
    exact (analyseExpr_rename b e).bind (fun _ => .pure (by simp only [Expr.rename]))
  | .andTest a es => by
    simp only [analyseExpr, Expr.rename]
    exact (analyseExpr_rename b a).bind (fun _ => (analyseExprs_rename b es).bind (fun _ => .pure (by simp only [Expr.rename])))
  | .orTest a es => by
    simp only [analyseExpr, Expr.rename]
    exact (analyseExpr_rename b a).bind (fun _ => (analyseExprs_rename b es).bind (fun _ => .pure (by simp only [Expr.rename])))
  | .ifElse x t y => by
    simp only [analyseExpr, Expr.rename]
    exact (analyseExpr_rename b x).bind (fun _ => (analyseExpr_rename b t).bind (fun _ => (analyseExprOpt_rename b y).bind
      (fun _ => .pure (by simp only [Expr.rename]))))
  | .list es => by
    simp only [analyseExpr, Expr.rename]
    exact (analyseExprs_rename b es).bind (fun _ => .pure (by simp only [Expr.rename]))
  | .tuple es => by
    simp only [analyseExpr, Expr.rename]
    exact (analyseExprs_rename b es).bind (fun _ => .pure (by simp only [Expr.rename]))
  | .set es => by
    simp only [analyseExpr, Expr.rename]
    exact (analyseExprs_rename b es).bind (fun _ => .pure (by simp only [Expr.rename]))
  | .dict es => by
    simp only [analyseExpr, Expr.rename]
    exact (analyseExprs_rename b es).bind (fun _ => .pure (by simp only [Expr.rename]))
  | .format es => by
    simp only [analyseExpr, Expr.rename]
    exact (analyseExprs_rename b es).bind (fun _ => .pure (by simp only [Expr.rename]))
  | .static _ => by simp only [analyseExpr, Expr.rename]; exact .pure (by simp only [Expr.rename])
  | .strLit _ => by simp only [analyseExpr, Expr.rename]; exact .pure (by simp only [Expr.rename])
  | .number _ => by simp only [analyseExpr, Expr.rename]; exact .pure (by simp only [Expr.rename])
  | .boolean _ => by simp only [analyseExpr, Expr.rename]; exact .pure (by simp only [Expr.rename])
  | .noneLit => by simp only [analyseExpr, Expr.rename]; exact .pure (by simp only [Expr.rename])
  | .sliceNone => by simp only [analyseExpr, Expr.rename]; exact .pure (by simp only [Expr.rename])
theorem analyseExprs_rename (b : List (Str × SlotInfo)) : ∀ es : List Expr,
    Maps f (Expr.renameAll f) (analyseExprs b es : Except (AErr I) _) (analyseExprs (renameDict f b) (Expr.renameAll f es))
  | [] => by simp only [analyseExprs, Expr.renameAll]; exact .pure (by simp only [Expr.renameAll])
  | e :: es => by
    simp only [analyseExprs, Expr.renameAll]
    exact (analyseExpr_rename b e).bind (fun _ => (analyseExprs_rename b es).bind (fun _ => .pure (by simp only [Expr.renameAll])))
theorem analyseExprOpt_rename (b : List (Str × SlotInfo)) : ∀ o : Option Expr,
    Maps f (Expr.renameOpt f) (analyseExprOpt b o : Except (AErr I) _) (analyseExprOpt (renameDict f b) (Expr.renameOpt f o))
  | .none => by simp only [analyseExprOpt, Expr.renameOpt]; exact .pure (by simp only [Expr.renameOpt])
  | some e => by
    simp only [analyseExprOpt, Expr.renameOpt]
    exact (analyseExpr_rename b e).bind (fun _ => .pure (by simp only [Expr.renameOpt]))
theorem analyseTails_rename (b : List (Str × SlotInfo)) : ∀ ts : List Tail,
    Maps f (Tail.renameAll f) (analyseTails b ts : Except (AErr I) _) (analyseTails (renameDict f b) (Tail.renameAll f ts))
  | [] => by simp only [analyseTails, Tail.renameAll]; exact .pure (by simp only [Tail.renameAll])
  | e :: es => by
    simp only [analyseTails, Tail.renameAll]
    exact (analyseTail_rename b e).bind (fun _ => (analyseTails_rename b es).bind (fun _ => .pure (by simp only [Tail.renameAll])))
theorem analyseTail_rename (b : List (Str × SlotInfo)) : ∀ t : Tail,
    Maps f (Tail.rename f) (analyseTail b t : Except (AErr I) _) (analyseTail (renameDict f b) (t.rename f))
  | .call _ es => by
    simp only [analyseTail, Tail.rename]
    exact (analyseExprs_rename b es).bind (fun _ => .pure (by simp only [Tail.rename]))
  | .partialCall _ es => by
    simp only [analyseTail, Tail.rename]
    exact (analyseExprs_rename b es).bind (fun _ => .pure (by simp only [Tail.rename]))
  | .index es => by
    simp only [analyseTail, Tail.rename]
    exact (analyseExprs_rename b es).bind (fun _ => .pure (by simp only [Tail.rename]))
  | .member _ => by simp only [analyseTail, Tail.rename]; exact .pure (by simp only [Tail.rename])
end

/-! ### Lines and tags -/

theorem analyseLine_rename (b : List (Str × SlotInfo)) (l : Line) :
    Maps f (Line.rename f) (analyseLine b l : Except (AErr I) _) (analyseLine (renameDict f b) (l.rename f)) := by
  cases l with
  | verbat s => exact .pure rfl
  | normal ps => exact (analyseExprs_rename hf b ps).bind (fun _ => .pure rfl)
  | markup ps => exact (analyseExprs_rename hf b ps).bind (fun _ => .pure rfl)

theorem analyseItem_rename (b : List (Str × SlotInfo)) (i : TextItem) :
    Maps f (TextItem.rename f) (analyseItem b i : Except (AErr I) _) (analyseItem (renameDict f b) (i.rename f)) := by
  cases i with
  | line l => exact (analyseLine_rename hf b l).bind (fun _ => .pure rfl)
  | _ => exact .pure rfl

theorem analyseItems_rename (b : List (Str × SlotInfo)) (is : List TextItem) :
    Maps f (List.map (TextItem.rename f)) (analyseItems b is : Except (AErr I) _) (analyseItems (renameDict f b) (is.map (TextItem.rename f))) := by
  induction is with
  | nil => exact .pure rfl
  | cons i is ih => exact (analyseItem_rename hf b i).bind (fun _ => ih.bind (fun _ => .pure rfl))

theorem analyseNamed_rename (b : List (Str × SlotInfo)) (ns : List (Str × Expr)) :
    Maps f (List.map (fun n => (n.1, n.2.rename f))) (analyseNamed b ns : Except (AErr I) _)
      (analyseNamed (renameDict f b) (ns.map (fun n => (n.1, n.2.rename f)))) := by
  induction ns with
  | nil => exact .pure rfl
  | cons n ns ih =>
    obtain ⟨n, e⟩ := n
    exact (analyseExpr_rename hf b e).bind (fun _ => ih.bind (fun _ => .pure rfl))

theorem analyseTag_rename (b : List (Str × SlotInfo)) (t : TagExp) :
    Maps f (TagExp.rename f) (analyseTag b t : Except (AErr I) _) (analyseTag (renameDict f b) (t.rename f)) := by
  cases t with
  | null => exact .pure rfl
  | tag name s us ns =>
    exact (analyseExprs_rename hf b us).bind (fun _ => (analyseNamed_rename hf b ns).bind (fun _ =>
      (resolve_rename hf b ('%' :: name) _ _ rfl).bind (fun _ => .pure rfl)))

theorem analyseTags_rename (b : List (Str × SlotInfo)) (ts : List TagExp) :
    Maps f (List.map (TagExp.rename f)) (analyseTags b ts : Except (AErr I) _) (analyseTags (renameDict f b) (ts.map (TagExp.rename f))) := by
  induction ts with
  | nil => exact .pure rfl
  | cons i is ih => exact (analyseTag_rename hf b i).bind (fun _ => ih.bind (fun _ => .pure rfl))

/-! ### Slots -/

omit hf in
theorem push_rename (c : Ctx) (s : Str) (i : SlotInfo) : (c.rename f).push (f.sym s) i = (c.push s i).rename f := by
  simp only [Ctx.push, Ctx.rename, renameDict, List.map_append, List.map_cons, List.map_nil]

theorem newSlot_rename (c : Ctx) (s : Str) :
    Maps f (f.both id) (newSlot c s : Except (AErr I) _) (newSlot (c.rename f) (f.sym s)) := by
  unfold newSlot
  rw [validSymbol_sym hf]
  split
  · refine congrArg Except.ok (congrArg (Prod.mk _) ?_)
    rw [push_rename]
    rfl
  · exact .error rfl

theorem declare_rename (c : Ctx) (s : Str) :
    Maps f (f.both id) (declare c s : Except (AErr I) _) (declare (c.rename f) (f.sym s)) := by
  unfold declare
  refine (newSlot_rename hf c s).bind (fun x => ?_)
  exact congrArg Except.ok (congrArg (Prod.mk _) (push_rename x.2 s x.1))

theorem writeSlot_rename (c : Ctx) (s : Str) :
    Maps f (f.both id) (writeSlot c s : Except (AErr I) _) (writeSlot (c.rename f) (f.sym s)) := by
  unfold writeSlot
  rw [show (c.rename f).get (f.sym s) = c.get s from lookupBind_rename hf _ _]
  cases c.get s with
  | none => exact declare_rename hf c s
  | some i =>
    show Maps f (f.both id) (if i.depth = c.regular then .ok (i, c) else declare c s)
      (if i.depth = c.regular then .ok (i, c.rename f) else declare (c.rename f) (f.sym s))
    split
    · rfl
    · exact declare_rename hf c s

theorem readSlot_rename (c : Ctx) (read : Bool) (n : Str) :
    Maps f id (readSlot c read ('$' :: n) : Except (AErr I) _) (readSlot (c.rename f) read ('$' :: f.var n)) := by
  unfold readSlot
  cases read with
  | true => exact resolve_rename hf c.binds ('$' :: n) _ _ rfl
  | false => rfl

mutual
theorem analyseTarget_rename : ∀ (t : Target) (c : Ctx),
    Maps f (f.both (Target.rename f)) (analyseTarget t c : Except (AErr I) _) (analyseTarget (t.rename f) (c.rename f))
  | .var name read _ _, c => by
    simp only [analyseTarget, Target.rename]
    exact (readSlot_rename hf c read name).bind (fun _ => (writeSlot_rename hf c ('$' :: name)).bind (fun x =>
      .pure (by simp only [Renaming.both, Target.rename, id])))
  | .many ts, c => by
    simp only [analyseTarget, Target.rename]
    exact (analyseTargets_rename ts c).bind (fun x => .pure (by simp only [Renaming.both, Target.rename]))
theorem analyseTargets_rename : ∀ (ts : List Target) (c : Ctx),
    Maps f (f.both (Target.renameAll f)) (analyseTargets ts c : Except (AErr I) _) (analyseTargets (Target.renameAll f ts) (c.rename f))
  | [], c => by
    simp only [analyseTargets, Target.renameAll]
    exact .pure (by simp only [Renaming.both, Target.renameAll])
  | t :: ts, c => by
    simp only [analyseTargets, Target.renameAll]
    exact (analyseTarget_rename t c).bind (fun x => (analyseTargets_rename ts x.2).bind (fun y =>
      .pure (by simp only [Renaming.both, Target.renameAll])))
end

/-! ### Parameters and imports -/

theorem analyseDefaults_rename (b : List (Str × SlotInfo)) (as : List AttrDef) :
    Maps f (List.map (AttrDef.rename f)) (analyseDefaults b as : Except (AErr I) _) (analyseDefaults (renameDict f b) (as.map (AttrDef.rename f))) := by
  induction as with
  | nil => exact .pure rfl
  | cons a as ih => exact (analyseExprOpt_rename hf b a.default).bind (fun _ => ih.bind (fun _ => .pure rfl))

omit hf in
theorem analyseDefaults_keep (p : Str → Prop) (b : List (Str × SlotInfo)) (as : List AttrDef) (h : ∀ a ∈ as, p a.name) :
    Post (fun l => ∀ a ∈ l, p a.name) (analyseDefaults b as : Except (AErr I) _) := by
  induction as with
  | nil => exact .pure (by simp)
  | cons a as ih =>
    simp only [analyseDefaults]
    refine (Post.any _).bind (fun e _ => (ih (fun x hx => h x (by simp [hx]))).bind (fun l hl => .pure ?_))
    intro x hx
    rcases List.mem_cons.1 hx with rfl | hx
    · exact h a (by simp)
    · exact hl x hx

theorem declareAttrs_rename (as : List AttrDef) (h : ∀ a ∈ as, f.var a.name = a.name) : ∀ c : Ctx,
    Maps f (f.both (List.map (AttrDef.rename f))) (declareAttrs as c : Except (AErr I) _) (declareAttrs (as.map (AttrDef.rename f)) (c.rename f)) := by
  induction as with
  | nil => exact fun c => .pure rfl
  | cons a as ih =>
    intro c
    simp only [declareAttrs, List.map_cons]
    have e : '$' :: (AttrDef.rename f a).name = f.sym ('$' :: a.name) := by
      rw [sym_var, h a (by simp)]; rfl
    rw [e]
    exact (declare_rename hf c ('$' :: a.name)).bind (fun x => (ih (fun y hy => h y (by simp [hy])) x.2).bind (fun y => .pure rfl))

/-- New names for symbols and slots. -/
theorem valueSlots_rename (l : List (Str × Val P)) : ∀ c : Ctx,
    Maps f (f.both (renameDict f)) (valueSlots l c : Except (AErr I) _) (valueSlots (renameDict f l) (c.rename f)) := by
  induction l with
  | nil => exact fun c => .pure rfl
  | cons a l ih =>
    obtain ⟨s, v⟩ := a
    intro c
    simp only [renameDict, List.map_cons, valueSlots]
    exact (newSlot_rename hf c s).bind (fun x => (ih x.2).bind (fun y => .pure rfl))

omit hf in
theorem renameDict_fixed {V : Type} (l : List (Str × V)) (h : ∀ x ∈ l, f.sym x.1 = x.1) : renameDict f l = l := by
  unfold renameDict
  rw [show l = l.map id from (List.map_id l).symm, List.map_map]
  exact List.map_congr_left (fun x hx => Prod.ext (h x hx) rfl)

omit hf in
theorem renameDict_snd {V : Type} (l : List (Str × V)) : (renameDict f l).map Prod.snd = l.map Prod.snd := by
  simp [renameDict, List.map_map, Function.comp_def]

theorem newSlot_renameAs (c : Ctx) (sym : Str) (ren : Option Str) :
    Maps f (f.both id) (newSlot c (renamed sym ren) : Except (AErr I) _) (newSlot (c.rename f) (renamed sym (renameAs f sym ren))) := by
  rcases renamed_sym (f := f) sym ren with h | ⟨h1, h2⟩
  · rw [h]; exact newSlot_rename hf c _
  · rw [h2]
    unfold newSlot
    rw [h1]
    exact .error rfl

variable (src : Source P I)

theorem analyseImport_rename (path : Option Str) (i : ImportItem P) (w : ∀ sl, i = .wild sl → ∀ y ∈ wildNames src path, f.sym y = y) (c : Ctx) :
    Maps f (f.both (ImportItem.rename f)) (analyseImport src path i c) (analyseImport src path (i.rename f) (c.rename f)) := by
  have hl : Maps f id (loadModule src path) (loadModule src path) := by
    unfold loadModule
    cases src.modules path <;> rfl
  cases i with
  | wild s =>
    simp only [analyseImport, ImportItem.rename]
    have hw : Post (fun r : Dict Str (Val P) × StateId => ∀ y ∈ (r.1.map Prod.fst).filter (fun s => s[1]? ≠ some '_'), f.sym y = y) (loadModule src path) := by
      unfold loadModule
      have w := w s rfl
      simp only [wildNames] at w
      cases hp : src.modules path with
      | error x => exact .error
      | ok r => rw [hp] at w; exact .ok w
    refine hl.bindPost hw ?_
    rintro ⟨symbols, st⟩ hw
    have hp : Maps f id (publicSymbols st symbols : Except (AErr I) _) (publicSymbols st symbols) := by
      clear hw
      induction symbols with
      | nil => rfl
      | cons a l ih =>
        obtain ⟨sym, v⟩ := a
        simp only [publicSymbols]
        cases (sym[1]? : Option Char) with
        | none => exact .error rfl
        | some ch => exact ih.bind (fun _ => .pure rfl)
    refine hp.bindPost (publicSymbols_names st symbols) (fun pub hpub => ?_)
    have := valueSlots_rename (I := I) hf pub c
    rw [renameDict_fixed pub (fun x hx => hw _ (hpub x hx))] at this
    refine this.bind (fun x => .pure ?_)
    simp only [Renaming.both, ImportItem.rename]
    rw [renameDict_snd]
  | name sym ren s =>
    simp only [analyseImport, ImportItem.rename]
    split
    · exact .error rfl
    · refine hl.bind ?_
      rintro ⟨symbols, st⟩
      simp only [id]
      cases Dict.get? symbols sym with
      | none => exact .error rfl
      | some v => exact (newSlot_renameAs hf c sym ren).bind (fun x => .pure rfl)
  | cntx sym ren s =>
    simp only [analyseImport, ImportItem.rename]
    cases Dict.get? src.context sym with
    | none => exact .error rfl
    | some v => exact (newSlot_renameAs hf c sym ren).bind (fun x => .pure rfl)

theorem analyseImports_rename (path : Option Str) (is : List (ImportItem P)) (w : ∀ sl, .wild sl ∈ is → ∀ y ∈ wildNames src path, f.sym y = y) : ∀ c : Ctx,
    Maps f (f.both (List.map (ImportItem.rename f))) (analyseImports src path is c) (analyseImports src path (is.map (ImportItem.rename f)) (c.rename f)) := by
  induction is with
  | nil => exact fun c => .pure rfl
  | cons i is ih =>
    intro c
    simp only [analyseImports, List.map_cons]
    exact (analyseImport_rename hf src path i (fun sl e => w sl (by simp [e])) c).bind (fun x =>
      (ih (fun sl hm => w sl (by simp [hm])) x.2).bind (fun y => .pure rfl))

/-! ### Ends of blocks -/

omit hf in
theorem leave_rename (c0 c : Ctx) : (c0.rename f).leave (c.rename f) = (c0.leave c).rename f := by
  simp only [Ctx.leave, Ctx.rename, renameDict, List.length_map, List.map_take]

theorem pushnew_rename (ps : List (Str × SlotInfo)) : ∀ c : Ctx, (c.rename f).pushnew (renameDict f ps) = (c.pushnew ps).rename f := by
  induction ps with
  | nil => exact fun c => rfl
  | cons a ps ih =>
    obtain ⟨k, v⟩ := a
    intro c
    simp only [renameDict, List.map_cons, Ctx.pushnew]
    rw [show (c.rename f).get (f.sym k) = c.get k from lookupBind_rename hf _ _, push_rename]
    split
    · exact ih c
    · exact ih (c.push k v)

theorem merge_rename (c0 c : Ctx) : (c0.rename f).mergeBranch (c.rename f) = (c0.mergeBranch c).rename f := by
  unfold Ctx.mergeBranch
  rw [← pushnew_rename hf, ← Dict.update_rename hf]
  simp only [Ctx.rename, renameDict, List.length_map, List.map_take, List.map_drop, List.map_nil]

omit hf in
theorem leaveProlog_rename (b : Stmt P) (c : Ctx) : leaveProlog (b.rename f) (c.rename f) = (leaveProlog b c).rename f := by
  cases b <;> simp only [Stmt.rename] <;> try rfl
  case imports ctx path items => cases ctx <;> rfl

/-! ### Statements -/

mutual
theorem analyse_rename : ∀ (s : Stmt P) (c : Ctx), s.renamable src f →
    Maps f (f.both (Stmt.rename f)) (analyse src s c) (analyse src (s.rename f) (c.rename f))
  | .static _, c, _ => by simp only [analyse, Stmt.rename]; exact .pure (by simp only [Renaming.both, Stmt.rename])
  | .indent _, c, _ => by simp only [analyse, Stmt.rename]; exact .pure (by simp only [Renaming.both, Stmt.rename])
  | .dedent _, c, _ => by simp only [analyse, Stmt.rename]; exact .pure (by simp only [Renaming.both, Stmt.rename])
  | .comment, c, _ => by simp only [analyse, Stmt.rename]; exact .pure (by simp only [Renaming.both, Stmt.rename])
  | .pass, c, _ => by simp only [analyse, Stmt.rename]; exact .pure (by simp only [Renaming.both, Stmt.rename])
  | .line l, c, _ => by
    simp only [analyse, Stmt.rename]
    exact (analyseLine_rename hf c.binds l).bind (fun _ => .pure (by simp only [Renaming.both, Stmt.rename]))
  | .xblock _ _ b, c, w => by
    simp only [Stmt.renamable] at w
    simp only [analyse, Stmt.rename]
    rw [leaveProlog_rename]
    exact (analyse_rename b _ w).bind (fun _ => .pure (by simp only [Renaming.both, Stmt.rename]))
  | .text _ items, c, _ => by
    simp only [analyse, Stmt.rename]
    exact (analyseItems_rename hf c.binds items).bind (fun _ => .pure (by simp only [Renaming.both, Stmt.rename]))
  | .embed e, c, _ => by
    simp only [analyse, Stmt.rename]
    exact (analyseExpr_rename hf c.binds e).bind (fun _ => .pure (by simp only [Renaming.both, Stmt.rename]))
  | .struct tags b, c, w => by
    simp only [Stmt.renamable] at w
    simp only [analyse, Stmt.rename]
    refine (analyseTags_rename hf c.binds tags).bind (fun _ =>
      (analyse_rename b { c with regular := c.regular + 1 } w).bind (fun x => .pure ?_))
    simp only [Renaming.both, Stmt.rename]
    rw [leave_rename]
  | .defn id name _ ba as b, c, w => by
    simp only [Stmt.renamable] at w
    obtain ⟨w1, w2⟩ := w
    simp only [analyse, Stmt.rename]
    rw [show (c.rename f).control = c.control from rfl, show (ba.map (AttrDef.rename f)).toList = ba.toList.map (AttrDef.rename f) by cases ba <;> rfl]
    split
    · exact .error rfl
    · refine (analyseDefaults_rename hf c.binds ba.toList).bindPost (analyseDefaults_keep (fun n => f.var n = n) _ _ (fun a ha => w1 a (List.mem_append_left _ ha))) (fun ba1 hba => ?_)
      refine (analyseDefaults_rename hf c.binds as).bindPost (analyseDefaults_keep (fun n => f.var n = n) _ _ (fun a ha => w1 a (List.mem_append_right _ ha))) (fun as1 has => ?_)
      refine (declareAttrs_rename hf ba1 hba { c with regular := c.regular + 1, hypertag := c.hypertag + 1 }).bind (fun x => ?_)
      refine (declareAttrs_rename hf as1 has x.2).bind (fun y => ?_)
      refine (analyse_rename b y.2 w2).bind (fun z => ?_)
      simp only [Renaming.both]
      rw [leave_rename]
      refine (newSlot_rename hf (c.leave z.2) ('%' :: name)).bind (fun s => .pure ?_)
      simp only [Renaming.both, Stmt.rename, List.head?_map]
      rfl
  | .imports true path items, c, w => by
    simp only [Stmt.renamable] at w
    simp only [analyse, Stmt.rename]
    rw [show (c.rename f).prolog = c.prolog from rfl]
    split
    · exact (analyseImports_rename hf src path items w c).bind (fun _ => .pure (by simp only [Renaming.both, Stmt.rename]))
    · exact .error rfl
  | .imports false path items, c, w => by
    simp only [Stmt.renamable] at w
    simp only [analyse, Stmt.rename]
    rw [show (c.rename f).control = c.control from rfl]
    split
    · exact .error rfl
    · exact (analyseImports_rename hf src path items w c).bind (fun _ => .pure (by simp only [Renaming.both, Stmt.rename]))
  | .tryBlock bs, c, w => by
    simp only [Stmt.renamable] at w
    simp only [analyse, Stmt.rename]
    exact (analyseBranches_rename bs { c with control := c.control + 1 } w).bind (fun _ => .pure (by simp only [Renaming.both, Stmt.rename]; rfl))
  | .ifBlock cs els, c, w => by
    simp only [Stmt.renamable] at w
    simp only [analyse, Stmt.rename]
    exact (analyseClauses_rename cs { c with control := c.control + 1 } w.1).bind (fun x =>
      (analyseElse_rename els x.2 w.2).bind (fun _ => .pure (by simp only [Renaming.both, Stmt.rename]; rfl)))
  | .elseClause b, c, w => by
    simp only [Stmt.renamable] at w
    simp only [analyse, Stmt.rename]
    exact (analyseOpt_rename b c w).bind (fun _ => .pure (by simp only [Renaming.both, Stmt.rename]))
  | .whileBlock e b els, c, w => by
    simp only [Stmt.renamable] at w
    simp only [analyse, Stmt.rename]
    refine (analyseExpr_rename hf c.binds e).bind (fun _ => (analyseOpt_rename b { c with control := c.control + 1 } w.1).bind (fun x => ?_))
    simp only [Renaming.both]
    rw [show ({ c.rename f with control := (c.rename f).control + 1 } : Ctx) = Ctx.rename f { c with control := c.control + 1 } from rfl, merge_rename hf]
    exact (analyseElse_rename els _ w.2).bind (fun _ => .pure (by simp only [Renaming.both, Stmt.rename]; rfl))
  | .forBlock tg e rest, c, w => by
    simp only [Stmt.renamable] at w
    simp only [analyse, Stmt.rename]
    exact (analyseExpr_rename hf c.binds e).bind (fun _ => (analyseTarget_rename hf tg { c with control := c.control + 1 }).bind (fun x =>
      (analyseFirst_rename rest x.2 w).bind (fun _ => .pure (by simp only [Renaming.both, Stmt.rename]; rfl))))
  | .exprBlock e, c, w => by
    simp only [analyse, Stmt.rename]
    exact (analyseExpr_rename hf c.binds e).bind (fun _ => .pure (by simp only [Renaming.both, Stmt.rename]))
  | .assign tg op e, c, w => by
    simp only [analyse, Stmt.rename]
    exact (analyseExpr_rename hf c.binds e).bind (fun _ => (analyseTarget_rename hf tg c).bind (fun _ => .pure (by simp only [Renaming.both, Stmt.rename])))
  | .body ss, c, w => by
    simp only [Stmt.renamable] at w
    simp only [analyse, Stmt.rename]
    exact (analyseAll_rename ss c w).bind (fun _ => .pure (by simp only [Renaming.both, Stmt.rename]))
theorem analyseAll_rename : ∀ (ss : List (Stmt P)) (c : Ctx), Stmt.renamableAll src f ss →
    Maps f (f.both (Stmt.renameAll f)) (analyseAll src ss c) (analyseAll src (Stmt.renameAll f ss) (c.rename f))
  | [], c, _ => by simp only [analyseAll, Stmt.renameAll]; exact .pure (by simp only [Renaming.both, Stmt.renameAll])
  | s :: ss, c, w => by
    simp only [Stmt.renamableAll] at w
    simp only [analyseAll, Stmt.renameAll]
    exact (analyse_rename s c w.1).bind (fun x => (analyseAll_rename ss x.2 w.2).bind (fun _ => .pure (by simp only [Renaming.both, Stmt.renameAll])))
theorem analyseBranches_rename : ∀ (ss : List (Stmt P)) (c : Ctx), Stmt.renamableAll src f ss →
    Maps f (f.both (Stmt.renameAll f)) (analyseBranches src ss c) (analyseBranches src (Stmt.renameAll f ss) (c.rename f))
  | [], c, _ => by simp only [analyseBranches, Stmt.renameAll]; exact .pure (by simp only [Renaming.both, Stmt.renameAll])
  | s :: ss, c, w => by
    simp only [Stmt.renamableAll] at w
    simp only [analyseBranches, Stmt.renameAll]
    refine (analyse_rename s c w.1).bind (fun x => ?_)
    simp only [Renaming.both]
    rw [merge_rename hf]
    exact (analyseBranches_rename ss _ w.2).bind (fun _ => .pure (by simp only [Renaming.both, Stmt.renameAll]))
theorem analyseClauses_rename : ∀ (cs : List (Expr × Option (Stmt P))) (c : Ctx), Stmt.renamableClauses src f cs →
    Maps f (f.both (Stmt.renameClauses f)) (analyseClauses src cs c) (analyseClauses src (Stmt.renameClauses f cs) (c.rename f))
  | [], c, _ => by simp only [analyseClauses, Stmt.renameClauses]; exact .pure (by simp only [Renaming.both, Stmt.renameClauses])
  | s :: ss, c, w => by
    simp only [Stmt.renamableClauses] at w
    simp only [analyseClauses, Stmt.renameClauses]
    refine (analyseClause_rename s c w.1).bind (fun x => ?_)
    simp only [Renaming.both]
    rw [merge_rename hf]
    exact (analyseClauses_rename ss _ w.2).bind (fun _ => .pure (by simp only [Renaming.both, Stmt.renameClauses]))
theorem analyseClause_rename : ∀ (cl : Expr × Option (Stmt P)) (c : Ctx), Stmt.renamableClause src f cl →
    Maps f (f.both (Stmt.renameClause f)) (analyseClause src cl c) (analyseClause src (Stmt.renameClause f cl) (c.rename f))
  | (e, b), c, w => by
    simp only [Stmt.renamableClause] at w
    simp only [analyseClause, Stmt.renameClause]
    exact (analyseExpr_rename hf c.binds e).bind (fun _ => (analyseOpt_rename b c w).bind (fun _ => .pure (by simp only [Renaming.both, Stmt.renameClause])))
theorem analyseElse_rename : ∀ (o : Option (Stmt P)) (c : Ctx), Stmt.renamableOpt src f o →
    Maps f (f.both (Stmt.renameOpt f)) (analyseElse src o c) (analyseElse src (Stmt.renameOpt f o) (c.rename f))
  | .none, c, _ => by simp only [analyseElse, Stmt.renameOpt]; exact .pure (by simp only [Renaming.both, Stmt.renameOpt])
  | some s, c, w => by
    simp only [Stmt.renamableOpt] at w
    simp only [analyseElse, Stmt.renameOpt]
    refine (analyse_rename s c w).bind (fun x => .pure ?_)
    simp only [Renaming.both, Stmt.renameOpt]
    rw [merge_rename hf]
theorem analyseOpt_rename : ∀ (o : Option (Stmt P)) (c : Ctx), Stmt.renamableOpt src f o →
    Maps f (f.both (Stmt.renameOpt f)) (analyseOpt src o c) (analyseOpt src (Stmt.renameOpt f o) (c.rename f))
  | .none, c, _ => by simp only [analyseOpt, Stmt.renameOpt]; exact .pure (by simp only [Renaming.both, Stmt.renameOpt])
  | some s, c, w => by
    simp only [Stmt.renamableOpt] at w
    simp only [analyseOpt, Stmt.renameOpt]
    exact (analyse_rename s c w).bind (fun x => .pure (by simp only [Renaming.both, Stmt.renameOpt]))
theorem analyseFirst_rename : ∀ (ss : List (Stmt P)) (c : Ctx), Stmt.renamableAll src f ss →
    Maps f (f.both (Stmt.renameAll f)) (analyseFirst src ss c) (analyseFirst src (Stmt.renameAll f ss) (c.rename f))
  | [], c, _ => by simp only [analyseFirst, Stmt.renameAll]; exact .pure (by simp only [Renaming.both, Stmt.renameAll])
  | s :: ss, c, w => by
    simp only [Stmt.renamableAll] at w
    simp only [analyseFirst, Stmt.renameAll]
    exact (analyse_rename s c w.1).bind (fun x => .pure (by simp only [Renaming.both, Stmt.renameAll]))
end

theorem analyseDocument_rename (first : Slot) (globals : Dict Str (Val P)) (children : List (Stmt P)) (w : Stmt.renamableAll src f children) :
    Maps f (Document.rename f) (analyseDocument src first globals children)
      (analyseDocument src first (renameDict f globals) (Stmt.renameAll f children)) := by
  unfold analyseDocument
  refine (valueSlots_rename hf globals { next := first }).bind (fun x => ?_)
  refine (analyseAll_rename hf src children x.2 w).bind (fun y => .pure ?_)
  simp only [Document.rename]
  rw [renameDict_snd]
  refine congrArg (Document.mk _ _) ?_
  have : (y.2.rename f).binds.drop (x.2.rename f).binds.length = renameDict f (y.2.binds.drop x.2.binds.length) := by
    simp only [Ctx.rename, renameDict, List.length_map, List.map_drop]
  rw [this, show ([] : Dict Str SlotInfo) = renameDict f [] from rfl, Dict.update_rename hf]
  simp [renameDict, List.map_map, Function.comp_def]

end
end
end
end Verif
