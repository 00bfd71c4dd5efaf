import Verif.Lemmas.EndsExpand
import Verif.Lemmas.Unslotted

/-! The analysis resolves tags in the bodies of hypertags to those defined before, and variables to variables. -/

set_option linter.unusedSectionVars false

namespace Verif
open Py Spec

/-! ### Expressions -/

section
variable {I : Type} {q : Option Slot → Prop} {b : List (Str × SlotInfo)} (hb : ∀ x ∈ b, x.1.head? = some '$' → q (some x.2.id))
include hb

theorem resolve_var (n : Str) (e : AErr I) : Post q (resolve b ('$' :: n) e : Except (AErr I) _) := by
  unfold resolve
  cases hl : lookupBind b ('$' :: n) with
  | none => exact .error
  | some s => exact .ok (hb _ (lookupBind_mem hl) rfl)

mutual
theorem analyseExpr_vars : ∀ e : Expr, e.tagsIf False → Post (fun e' => e'.reads q) (analyseExpr b e : Except (AErr I) _)
  | .root _ e, t => by
    simp only [Expr.tagsIf] at t
    simp only [analyseExpr]; exact (analyseExpr_vars e t).bind (fun a h => .pure (by simp only [Expr.reads]; exact h))
  | .tagUse _ _, t => by simp only [Expr.tagsIf] at t
  | .varUse n _, t => by
    simp only [analyseExpr]; exact (resolve_var hb _ _).bind (fun a h => .pure (by simp only [Expr.reads]; exact h))
  | .factor a ts _, t => by
    simp only [Expr.tagsIf] at t
    simp only [analyseExpr]
    exact (analyseExpr_vars a t.1).bind (fun a h => (analyseTails_vars ts t.2).bind (fun a' h' => .pure (by simp only [Expr.reads]; exact ⟨h, h'⟩)))
  | .chain _ a _ es, t => by
    simp only [Expr.tagsIf] at t
    simp only [analyseExpr]
    exact (analyseExpr_vars a t.1).bind (fun a h => (analyseExprs_vars es t.2).bind (fun a' h' => .pure (by simp only [Expr.reads]; exact ⟨h, h'⟩)))
  | .concat es, t => by
    simp only [Expr.tagsIf] at t
    simp only [analyseExpr]; exact (analyseExprs_vars es t).bind (fun a h => .pure (by simp only [Expr.reads]; exact h))
  | .bits _ a es, t => by
    simp only [Expr.tagsIf] at t
    simp only [analyseExpr]
    exact (analyseExpr_vars a t.1).bind (fun a h => (analyseExprs_vars es t.2).bind (fun a' h' => .pure (by simp only [Expr.reads]; exact ⟨h, h'⟩)))
  | .pipeline a es, t => by
    simp only [Expr.tagsIf] at t
    simp only [analyseExpr]
    exact (analyseExpr_vars a t.1).bind (fun a h => (analyseExprs_vars es t.2).bind (fun a' h' => .pure (by simp only [Expr.reads]; exact ⟨h, h'⟩)))
  | .notTest _ e, t => by
    simp only [Expr.tagsIf] at t
    simp only [analyseExpr]; exact (analyseExpr_vars e t).bind (fun a h => .pure (by simp only [Expr.reads]; exact h))
  | .andTest a es, t => by
    simp only [Expr.tagsIf] at t
    simp only [analyseExpr]
    exact (analyseExpr_vars a t.1).bind (fun a h => (analyseExprs_vars es t.2).bind (fun a' h' => .pure (by simp only [Expr.reads]; exact ⟨h, h'⟩)))
  | .orTest a es, t => by
    simp only [Expr.tagsIf] at t
    simp only [analyseExpr]
    exact (analyseExpr_vars a t.1).bind (fun a h => (analyseExprs_vars es t.2).bind (fun a' h' => .pure (by simp only [Expr.reads]; exact ⟨h, h'⟩)))
  | .ifElse x y z, t => by
    simp only [Expr.tagsIf] at t
    simp only [analyseExpr]
    exact (analyseExpr_vars x t.1).bind (fun a h => (analyseExpr_vars y t.2.1).bind (fun a' h' => (analyseExprOpt_vars z t.2.2).bind
      (fun a'' h'' => .pure (by simp only [Expr.reads]; exact ⟨h, h', h''⟩))))
  | .list es, t => by
    simp only [Expr.tagsIf] at t
    simp only [analyseExpr]; exact (analyseExprs_vars es t).bind (fun a h => .pure (by simp only [Expr.reads]; exact h))
  | .tuple es, t => by
    simp only [Expr.tagsIf] at t
    simp only [analyseExpr]; exact (analyseExprs_vars es t).bind (fun a h => .pure (by simp only [Expr.reads]; exact h))
  | .set es, t => by
    simp only [Expr.tagsIf] at t
    simp only [analyseExpr]; exact (analyseExprs_vars es t).bind (fun a h => .pure (by simp only [Expr.reads]; exact h))
  | .dict es, t => by
    simp only [Expr.tagsIf] at t
    simp only [analyseExpr]; exact (analyseExprs_vars es t).bind (fun a h => .pure (by simp only [Expr.reads]; exact h))
  | .format es, t => by
    simp only [Expr.tagsIf] at t
    simp only [analyseExpr]; exact (analyseExprs_vars es t).bind (fun a h => .pure (by simp only [Expr.reads]; exact h))
  | .static _, _ => by simp only [analyseExpr]; exact .pure (by simp only [Expr.reads])
  | .strLit _, _ => by simp only [analyseExpr]; exact .pure (by simp only [Expr.reads])
  | .number _, _ => by simp only [analyseExpr]; exact .pure (by simp only [Expr.reads])
  | .boolean _, _ => by simp only [analyseExpr]; exact .pure (by simp only [Expr.reads])
  | .noneLit, _ => by simp only [analyseExpr]; exact .pure (by simp only [Expr.reads])
  | .sliceNone, _ => by simp only [analyseExpr]; exact .pure (by simp only [Expr.reads])
theorem analyseExprs_vars : ∀ es : List Expr, Expr.tagsIfAll False es → Post (Expr.readsAll q) (analyseExprs b es : Except (AErr I) _)
  | [], _ => by simp only [analyseExprs]; exact .pure (by simp only [Expr.readsAll])
  | e :: es, t => by
    simp only [Expr.tagsIfAll] at t
    simp only [analyseExprs]
    exact (analyseExpr_vars e t.1).bind (fun a h => (analyseExprs_vars es t.2).bind (fun a' h' => .pure (by simp only [Expr.readsAll]; exact ⟨h, h'⟩)))
theorem analyseExprOpt_vars : ∀ o : Option Expr, Expr.tagsIfOpt False o → Post (Expr.readsOpt q) (analyseExprOpt b o : Except (AErr I) _)
  | .none, _ => by simp only [analyseExprOpt]; exact .pure (by simp only [Expr.readsOpt])
  | some e, t => by
    simp only [Expr.tagsIfOpt] at t
    simp only [analyseExprOpt]; exact (analyseExpr_vars e t).bind (fun a h => .pure (by simp only [Expr.readsOpt]; exact h))
theorem analyseTails_vars : ∀ ts : List Tail, Tail.tagsIfAll False ts → Post (Tail.readsAll q) (analyseTails b ts : Except (AErr I) _)
  | [], _ => by simp only [analyseTails]; exact .pure (by simp only [Tail.readsAll])
  | x :: ts, t => by
    simp only [Tail.tagsIfAll] at t
    simp only [analyseTails]
    exact (analyseTail_vars x t.1).bind (fun a h => (analyseTails_vars ts t.2).bind (fun a' h' => .pure (by simp only [Tail.readsAll]; exact ⟨h, h'⟩)))
theorem analyseTail_vars : ∀ x : Tail, x.tagsIf False → Post (fun t' => t'.reads q) (analyseTail b x : Except (AErr I) _)
  | .call _ es, t => by
    simp only [Tail.tagsIf] at t
    simp only [analyseTail]; exact (analyseExprs_vars es t).bind (fun a h => .pure (by simp only [Tail.reads]; exact h))
  | .partialCall _ es, t => by
    simp only [Tail.tagsIf] at t
    simp only [analyseTail]; exact (analyseExprs_vars es t).bind (fun a h => .pure (by simp only [Tail.reads]; exact h))
  | .index es, t => by
    simp only [Tail.tagsIf] at t
    simp only [analyseTail]; exact (analyseExprs_vars es t).bind (fun a h => .pure (by simp only [Tail.reads]; exact h))
  | .member _, _ => by simp only [analyseTail]; exact .pure (by simp only [Tail.reads])
end

theorem analyseLine_vars (l : Line) (t : l.untagged) : Post (fun l' => l'.reads q) (analyseLine b l : Except (AErr I) _) := by
  cases l with
  | verbat s => simp only [analyseLine]; exact .pure (by simp only [Line.reads])
  | normal ps => simp only [analyseLine]; exact (analyseExprs_vars hb ps t).bind (fun a h => .pure (by simp only [Line.reads]; exact h))
  | markup ps => simp only [analyseLine]; exact (analyseExprs_vars hb ps t).bind (fun a h => .pure (by simp only [Line.reads]; exact h))

theorem analyseItem_vars (i : TextItem) (t : i.untagged) : Post (fun i' => i'.reads q) (analyseItem b i : Except (AErr I) _) := by
  cases i with
  | line l => simp only [analyseItem]; exact (analyseLine_vars hb l t).bind (fun a h => .pure (by simp only [TextItem.reads]; exact h))
  | margin s => exact .pure (by simp only [TextItem.reads])
  | indent s => exact .pure (by simp only [TextItem.reads])
  | dedent s => exact .pure (by simp only [TextItem.reads])

theorem analyseItems_vars (is : List TextItem) (t : ∀ i ∈ is, i.untagged) :
    Post (fun l => ∀ i ∈ l, i.reads q) (analyseItems b is : Except (AErr I) _) := by
  induction is with
  | nil => exact .pure (by simp)
  | cons i is ih =>
    simp only [analyseItems]
    exact (analyseItem_vars hb i (t i (by simp))).bind (fun a h => (ih (fun j hj => t j (by simp [hj]))).bind (fun l hl => .pure (by
      intro j hj
      rcases List.mem_cons.1 hj with rfl | hj
      · exact h
      · exact hl j hj)))

theorem analyseNamed_vars (ns : List (Str × Expr)) (t : ∀ n ∈ ns, n.2.tagsIf False) :
    Post (fun l => ∀ n ∈ l, n.2.reads q) (analyseNamed b ns : Except (AErr I) _) := by
  induction ns with
  | nil => exact .pure (by simp)
  | cons n ns ih =>
    obtain ⟨k, e⟩ := n
    simp only [analyseNamed]
    exact (analyseExpr_vars hb e (t (k, e) (by simp))).bind (fun a h => (ih (fun j hj => t j (by simp [hj]))).bind (fun l hl => .pure (by
      intro j hj
      rcases List.mem_cons.1 hj with rfl | hj
      · exact h
      · exact hl j hj)))

theorem analyseDefaults_vars (as : List AttrDef) (t : ∀ a ∈ as, Expr.tagsIfOpt False a.default) :
    Post (fun l => ∀ a ∈ l, Expr.readsOpt q a.default) (analyseDefaults b as : Except (AErr I) _) := by
  induction as with
  | nil => exact .pure (by simp)
  | cons a as ih =>
    simp only [analyseDefaults]
    exact (analyseExprOpt_vars hb _ (t a (by simp))).bind (fun e h => (ih (fun j hj => t j (by simp [hj]))).bind (fun l hl => .pure (by
      intro j hj
      rcases List.mem_cons.1 hj with rfl | hj
      · exact h
      · exact hl j hj)))

end

theorem Post.self {ε α : Type} (r : Except ε α) : Post (fun a => r = .ok a) r := fun _ h => h

/-! ### Contexts -/

/-- Slots are numbered in order; no variable is in the slot of a hypertag. -/
structure Ctx.Sorted (G : DefId → Slot → Prop) (c : Ctx) : Prop where
  before : ∀ x ∈ c.binds, x.2.id < c.next
  vars : ∀ x ∈ c.binds, x.1.head? = some '$' → ∀ id, ¬ G id x.2.id

section
variable {G : DefId → Slot → Prop}

theorem Ctx.Sorted.noTag {c : Ctx} (h : c.Sorted G) : ∀ x ∈ c.binds, x.1.head? = some '$' → NoTag G (some x.2.id) := fun x hx hs k hk => by
  cases hk; exact h.vars x hx hs

theorem Ctx.Sorted.sub {c c' : Ctx} (h : c.Sorted G) (hn : c.next ≤ c'.next) (hb : ∀ x ∈ c'.binds, x ∈ c.binds) : c'.Sorted G :=
  ⟨fun x hx => Nat.lt_of_lt_of_le (h.before x (hb x hx)) hn, fun x hx => h.vars x (hb x hx)⟩

end

theorem mergeBranch_next (c0 c : Ctx) : (c0.mergeBranch c).next = c.next := by
  have : ∀ (ps : List (Str × SlotInfo)) (c : Ctx), (c.pushnew ps).next = c.next := by
    intro ps
    induction ps with
    | nil => exact fun c => rfl
    | cons a ps ih =>
      intro c
      obtain ⟨k, v⟩ := a
      simp only [Ctx.pushnew]
      split
      · exact ih _
      · exact ih _
  exact this _ _

theorem mergeBranch_mem (c0 c : Ctx) : ∀ x ∈ (c0.mergeBranch c).binds, x ∈ c.binds := by
  have : ∀ (ps : List (Str × SlotInfo)) (c1 : Ctx), (∀ x ∈ ps, x ∈ c.binds) → (∀ x ∈ c1.binds, x ∈ c.binds) → ∀ x ∈ (c1.pushnew ps).binds, x ∈ c.binds := by
    intro ps
    induction ps with
    | nil => exact fun c1 _ h => h
    | cons a ps ih =>
      intro c1 h1 h2
      obtain ⟨k, v⟩ := a
      simp only [Ctx.pushnew]
      split
      · exact ih _ (fun x hx => h1 x (by simp [hx])) h2
      · refine ih _ (fun x hx => h1 x (by simp [hx])) (fun x hx => ?_)
        simp only [Ctx.push, List.mem_append, List.mem_singleton] at hx
        rcases hx with hx | rfl
        · exact h2 x hx
        · exact h1 _ (by simp)
  refine this _ _ (fun x hx => ?_) (fun x hx => List.mem_of_mem_take hx)
  rcases update_mem _ _ _ hx with h | h
  · cases h
  · exact List.mem_of_mem_drop h

/-! ### Definitions with their slots -/

section
variable {P I : Type}

mutual
/-- Definitions of hypertags and their slots. -/
def Stmt.slotted : Stmt P → List (DefId × Slot × DefInfo P)
  | .xblock _ _ b => b.slotted
  | .struct _ b => b.slotted
  | .defn id _ slot ba as b => (slot.map (fun k => (id, k, DefInfo.ofDefn ba as b))).toList ++ b.slotted
  | .tryBlock bs => Stmt.slottedAll bs
  | .ifBlock cs els => Stmt.slottedClauses cs ++ Stmt.slottedOpt els
  | .elseClause b => Stmt.slottedOpt b
  | .whileBlock _ b els => Stmt.slottedOpt b ++ Stmt.slottedOpt els
  | .forBlock _ _ rest => Stmt.slottedAll rest
  | .body ss => Stmt.slottedAll ss
  | _ => []
def Stmt.slottedAll : List (Stmt P) → List (DefId × Slot × DefInfo P)
  | [] => []
  | s :: ss => s.slotted ++ Stmt.slottedAll ss
def Stmt.slottedOpt : Option (Stmt P) → List (DefId × Slot × DefInfo P)
  | none => []
  | some s => s.slotted
def Stmt.slottedClause : Expr × Option (Stmt P) → List (DefId × Slot × DefInfo P)
  | (_, b) => Stmt.slottedOpt b
def Stmt.slottedClauses : List (Expr × Option (Stmt P)) → List (DefId × Slot × DefInfo P)
  | [] => []
  | c :: cs => Stmt.slottedClause c ++ Stmt.slottedClauses cs
end

mutual
theorem Stmt.slotted_defs : ∀ s : Stmt P, ∀ x ∈ s.slotted, (x.1, x.2.2) ∈ s.defs
  | .static _ => by simp [Stmt.slotted]
  | .indent _ => by simp [Stmt.slotted]
  | .dedent _ => by simp [Stmt.slotted]
  | .line _ => by simp [Stmt.slotted]
  | .xblock _ _ b => by simp only [Stmt.slotted, Stmt.defs]; exact Stmt.slotted_defs b
  | .text _ _ => by simp [Stmt.slotted]
  | .comment => by simp [Stmt.slotted]
  | .embed _ => by simp [Stmt.slotted]
  | .struct _ b => by simp only [Stmt.slotted, Stmt.defs]; exact Stmt.slotted_defs b
  | .defn id n slot ba as b => by
    simp only [Stmt.slotted, Stmt.defs]
    intro x hx
    rcases List.mem_append.1 hx with hx | hx
    · cases slot with
      | none => cases hx
      | some k =>
        simp only [Option.map_some, Option.toList_some, List.mem_singleton] at hx
        subst hx
        exact List.mem_cons_self
    · exact List.mem_cons_of_mem _ (Stmt.slotted_defs b x hx)
  | .imports _ _ _ => by simp [Stmt.slotted]
  | .tryBlock bs => by simp only [Stmt.slotted, Stmt.defs]; exact Stmt.slottedAll_defs bs
  | .ifBlock cs els => by
    simp only [Stmt.slotted, Stmt.defs]
    intro x hx
    exact (List.mem_append.1 hx).elim (fun h => List.mem_append_left _ (Stmt.slottedClauses_defs cs x h))
      (fun h => List.mem_append_right _ (Stmt.slottedOpt_defs els x h))
  | .elseClause b => by simp only [Stmt.slotted, Stmt.defs]; exact Stmt.slottedOpt_defs b
  | .whileBlock _ b els => by
    simp only [Stmt.slotted, Stmt.defs]
    intro x hx
    exact (List.mem_append.1 hx).elim (fun h => List.mem_append_left _ (Stmt.slottedOpt_defs b x h))
      (fun h => List.mem_append_right _ (Stmt.slottedOpt_defs els x h))
  | .forBlock _ _ rest => by simp only [Stmt.slotted, Stmt.defs]; exact Stmt.slottedAll_defs rest
  | .exprBlock _ => by simp [Stmt.slotted]
  | .assign _ _ _ => by simp [Stmt.slotted]
  | .body ss => by simp only [Stmt.slotted, Stmt.defs]; exact Stmt.slottedAll_defs ss
  | .pass => by simp [Stmt.slotted]
theorem Stmt.slottedAll_defs : ∀ ss : List (Stmt P), ∀ x ∈ Stmt.slottedAll ss, (x.1, x.2.2) ∈ Stmt.defsAll ss
  | [] => by simp [Stmt.slottedAll]
  | s :: ss => by
    simp only [Stmt.slottedAll, Stmt.defsAll]
    intro x hx
    exact (List.mem_append.1 hx).elim (fun h => List.mem_append_left _ (Stmt.slotted_defs s x h))
      (fun h => List.mem_append_right _ (Stmt.slottedAll_defs ss x h))
theorem Stmt.slottedOpt_defs : ∀ o : Option (Stmt P), ∀ x ∈ Stmt.slottedOpt o, (x.1, x.2.2) ∈ Stmt.defsOpt o
  | none => by simp [Stmt.slottedOpt]
  | some s => by simp only [Stmt.slottedOpt, Stmt.defsOpt]; exact Stmt.slotted_defs s
theorem Stmt.slottedClause_defs : ∀ c : Expr × Option (Stmt P), ∀ x ∈ Stmt.slottedClause c, (x.1, x.2.2) ∈ Stmt.defsClause c
  | (_, b) => by simp only [Stmt.slottedClause, Stmt.defsClause]; exact Stmt.slottedOpt_defs b
theorem Stmt.slottedClauses_defs : ∀ cs : List (Expr × Option (Stmt P)), ∀ x ∈ Stmt.slottedClauses cs, (x.1, x.2.2) ∈ Stmt.defsClauses cs
  | [] => by simp [Stmt.slottedClauses]
  | c :: cs => by
    simp only [Stmt.slottedClauses, Stmt.defsClauses]
    intro x hx
    exact (List.mem_append.1 hx).elim (fun h => List.mem_append_left _ (Stmt.slottedClause_defs c x h))
      (fun h => List.mem_append_right _ (Stmt.slottedClauses_defs cs x h))
end

/-! ### Parts that are not analysed -/

section
variable {M : Marks} {U : Uni} {V : Val P → Prop} {G : DefId → Slot → Prop} {k : Slot}

theorem noTag_none (o : Option Slot) (h : o = none) : NoTag G o := fun k e => by rw [h] at e; cases e

theorem ImportItem.Made.brings {context : Bool} {i : ImportItem P} (h : i.Made context) : i.brings V := by
  cases i with
  | wild slots => exact fun l hl => by rw [h.2] at hl; cases hl
  | name s r slot => exact fun l hl => by rw [h.2.2.2] at hl; cases hl
  | cntx s r slot => exact fun l hl => by rw [h.2.2.2] at hl; cases hl

theorem TagExp.Made.orderly {t : TagExp} (h : t.Made U) : t.orderly G k := by
  cases t with
  | null => trivial
  | tag name slot us ns =>
    exact ⟨Expr.readsAll_mono noTag_none _ (Expr.MadeAll.noSlots h.2.2.1), fun n hn => Expr.reads_mono noTag_none _ (h.2.2.2 n hn).2.noSlots,
      fun k hk => by rw [h.2.1] at hk; cases hk⟩

mutual
theorem Stmt.Made.orderly : ∀ {s : Stmt P}, s.Made M U → s.straight → s.orderly V G k ∧ s.slotted = []
  | .static _, _, _ => by simp [Stmt.orderly, Stmt.slotted]
  | .indent _, _, _ => by simp [Stmt.orderly, Stmt.slotted]
  | .dedent _, _, _ => by simp [Stmt.orderly, Stmt.slotted]
  | .line l, h, _ => by
    simp only [Stmt.Made, Stmt.orderly, Stmt.slotted] at *; exact ⟨Line.reads_mono noTag_none _ h.noSlots, trivial⟩
  | .xblock _ _ b, h, t => by
    simp only [Stmt.Made, Stmt.straight, Stmt.orderly, Stmt.slotted] at *; exact h.2.2.orderly t
  | .text _ items, h, _ => by
    simp only [Stmt.Made, Stmt.orderly, Stmt.slotted] at *
    obtain ⟨k, hk⟩ := h.2
    exact ⟨fun i hi => TextItem.reads_mono noTag_none _ (nested_noSlots hk i hi), trivial⟩
  | .comment, _, _ => by simp [Stmt.orderly, Stmt.slotted]
  | .embed e, h, _ => by
    simp only [Stmt.Made, Stmt.orderly, Stmt.slotted] at *; exact ⟨Expr.reads_mono noTag_none _ h.noSlots, trivial⟩
  | .struct tags b, h, t => by
    simp only [Stmt.Made, Stmt.straight, Stmt.orderly, Stmt.slotted] at *
    have hb := h.2.2.orderly t.2
    refine ⟨⟨fun t ht => ?_, hb.1⟩, hb.2⟩
    rcases h.1 with h | h
    · subst h
      rw [List.mem_singleton.1 ht]
      trivial
    · exact (h.2 t ht).orderly
  | .defn id n slot ba as b, h, t => by
    simp only [Stmt.Made, Stmt.straight, Stmt.orderly, Stmt.slotted] at *
    have hb := h.2.2.2.2.2.2.orderly t.2.2
    exact ⟨fun k hk => (by rw [h.2.1] at hk; cases hk), by rw [h.2.1, hb.2]; rfl⟩
  | .imports _ _ items, h, _ => by
    simp only [Stmt.Made, Stmt.orderly, Stmt.slotted] at *
    exact ⟨fun i hi => (h.2.2.2 i hi).brings, trivial⟩
  | .tryBlock bs, h, t => by
    simp only [Stmt.Made, Stmt.straight, Stmt.orderly, Stmt.slotted] at *; exact Stmt.MadeAll.orderly h.2.2 t
  | .ifBlock cs els, h, t => by
    simp only [Stmt.Made, Stmt.straight, Stmt.orderly, Stmt.slotted] at *
    have h1 := Stmt.MadeClauses.orderly h.2.1 t.1
    have h2 := Stmt.MadeOpt.orderly h.2.2.2 t.2
    exact ⟨⟨h1.1, h2.1⟩, by rw [h1.2, h2.2]; rfl⟩
  | .elseClause b, h, t => by
    simp only [Stmt.Made, Stmt.straight, Stmt.orderly, Stmt.slotted] at *; exact Stmt.MadeOpt.orderly h.2 t
  | .whileBlock _ _ _, _, t => by simp only [Stmt.straight] at t
  | .forBlock ta e rest, h, t => by
    simp only [Stmt.Made, Stmt.straight, Stmt.orderly, Stmt.slotted] at *
    have hr := Stmt.MadeAll.orderly h.2.2.2.2 t.2
    exact ⟨⟨Expr.reads_mono noTag_none _ h.2.2.1.noSlots, hr.1⟩, hr.2⟩
  | .exprBlock e, h, _ => by
    simp only [Stmt.Made, Stmt.orderly, Stmt.slotted] at *; exact ⟨Expr.reads_mono noTag_none _ h.noSlots, trivial⟩
  | .assign ta _ e, h, _ => by
    simp only [Stmt.Made, Stmt.orderly, Stmt.slotted] at *
    exact ⟨⟨Expr.reads_mono noTag_none _ h.2.2.noSlots, Target.reads_mono noTag_none _ h.1.noSlots⟩, trivial⟩
  | .body ss, h, t => by
    simp only [Stmt.Made, Stmt.straight, Stmt.orderly, Stmt.slotted] at *; exact Stmt.MadeAll.orderly h.2 t
  | .pass, _, _ => by simp [Stmt.orderly, Stmt.slotted]
theorem Stmt.MadeAll.orderly : ∀ {ss : List (Stmt P)}, Stmt.MadeAll M U ss → Stmt.straightAll ss → Stmt.orderlyAll V G k ss ∧ Stmt.slottedAll ss = []
  | [], _, _ => by simp [Stmt.orderlyAll, Stmt.slottedAll]
  | s :: ss, h, t => by
    simp only [Stmt.MadeAll, Stmt.straightAll, Stmt.orderlyAll, Stmt.slottedAll] at *
    have h1 := h.1.orderly t.1
    have h2 := Stmt.MadeAll.orderly h.2 t.2
    exact ⟨⟨h1.1, h2.1⟩, by rw [h1.2, h2.2]; rfl⟩
theorem Stmt.MadeOpt.orderly : ∀ {o : Option (Stmt P)}, Stmt.MadeOpt M U o → Stmt.straightOpt o → Stmt.orderlyOpt V G k o ∧ Stmt.slottedOpt o = []
  | .none, _, _ => by simp [Stmt.orderlyOpt, Stmt.slottedOpt]
  | .some s, h, t => by simp only [Stmt.MadeOpt, Stmt.straightOpt, Stmt.orderlyOpt, Stmt.slottedOpt] at *; exact h.orderly t
theorem Stmt.MadeClause.orderly : ∀ {c : Expr × Option (Stmt P)}, Stmt.MadeClause M U c → Stmt.straightClause c →
    Stmt.orderlyClause V G k c ∧ Stmt.slottedClause c = []
  | (e, b), h, t => by
    simp only [Stmt.MadeClause, Stmt.straightClause, Stmt.orderlyClause, Stmt.slottedClause] at *
    have h2 := Stmt.MadeOpt.orderly h.2.2 t.2
    exact ⟨⟨Expr.reads_mono noTag_none _ h.1.noSlots, h2.1⟩, h2.2⟩
theorem Stmt.MadeClauses.orderly : ∀ {cs : List (Expr × Option (Stmt P))}, Stmt.MadeClauses M U cs → Stmt.straightClauses cs →
    Stmt.orderlyClauses V G k cs ∧ Stmt.slottedClauses cs = []
  | [], _, _ => by simp [Stmt.orderlyClauses, Stmt.slottedClauses]
  | c :: cs, h, t => by
    simp only [Stmt.MadeClauses, Stmt.straightClauses, Stmt.orderlyClauses, Stmt.slottedClauses] at *
    have h1 := Stmt.MadeClause.orderly h.1 t.1
    have h2 := Stmt.MadeClauses.orderly h.2 t.2
    exact ⟨⟨h1.1, h2.1⟩, by rw [h1.2, h2.2]; rfl⟩
end

end
end
end Verif
