import Verif.Spec.Scope
import Verif.Lemmas.Post

/-! Analysis of expressions decides whether all symbols are in scope. -/

set_option linter.unusedSectionVars false

namespace Verif
open Py

section
variable {P I α β : Type}

/-- The exceptions for names without a definition. -/
def AErr.undefined : AErr I → Prop
  | .undefinedVar _ => True
  | .undefinedTag _ => True
  | _ => False

/-- If analysis succeeds then `A` holds and the result satisfies `Q`; if it fails because of an
undefined name then `A` does not hold. -/
def Judge (A : Prop) (Q : α → Prop) (r : Except (AErr I) α) : Prop :=
  (∀ a, r = .ok a → A ∧ Q a) ∧ (∀ e, r = .error e → e.undefined → ¬ A)

theorem Judge.pure {A : Prop} {Q : α → Prop} {a : α} (hA : A) (h : Q a) :
    Judge A Q (Pure.pure a : Except (AErr I) α) :=
  ⟨fun b hb => by cases hb; exact ⟨hA, h⟩, fun e he => by cases he⟩

theorem Judge.error {A : Prop} {Q : α → Prop} {e : AErr I} (h : e.undefined → ¬ A) :
    Judge A Q (.error e : Except (AErr I) α) :=
  ⟨fun b hb => (by cases hb), fun e' he => by cases he; exact h⟩

theorem Judge.bind {A B : Prop} {Q : α → Prop} {R : β → Prop} {c : Except (AErr I) α}
    {f : α → Except (AErr I) β} (hc : Judge A Q c) (hf : ∀ a, Q a → Judge B R (f a)) :
    Judge (A ∧ B) R (c >>= f) := by
  cases c with
  | error e =>
    refine ⟨fun b hb => (by cases hb), fun e' he hu hAB => ?_⟩
    have he : (Except.error e : Except (AErr I) β) = .error e' := he
    cases he
    exact hc.2 e rfl hu hAB.1
  | ok a =>
    obtain ⟨hA, hQ⟩ := hc.1 a rfl
    refine ⟨fun b hb => ?_, fun e he hu hAB => ?_⟩
    · obtain ⟨hB, hR⟩ := (hf a hQ).1 b hb
      exact ⟨⟨hA, hB⟩, hR⟩
    · exact (hf a hQ).2 e he hu hAB.2

/-- The last step does not use names. -/
theorem Judge.map {A : Prop} {Q : α → Prop} {R : β → Prop} {c : Except (AErr I) α}
    {f : α → Except (AErr I) β} (hc : Judge A Q c) (hf : ∀ a, Q a → Judge True R (f a)) :
    Judge A R (c >>= f) := by
  have h := hc.bind hf
  exact ⟨fun a ha => ⟨(h.1 a ha).1.1, (h.1 a ha).2⟩, fun e he hu hA => h.2 e he hu ⟨hA, trivial⟩⟩

theorem Judge.iff {A B : Prop} {Q : α → Prop} {c : Except (AErr I) α} (h : A ↔ B) (hc : Judge A Q c) :
    Judge B Q c :=
  ⟨fun a ha => ⟨h.1 (hc.1 a ha).1, (hc.1 a ha).2⟩, fun e he hu hB => hc.2 e he hu (h.2 hB)⟩

theorem Judge.post {A : Prop} {Q : α → Prop} {c : Except (AErr I) α} (h : Judge A Q c) : Post Q c :=
  fun a ha => (h.1 a ha).2

/-- Without names, a postcondition is enough. -/
theorem Judge.of_post {Q : α → Prop} {c : Except (AErr I) α} (h : Post Q c)
    (hu : ∀ e, c = .error e → ¬ e.undefined) : Judge True Q c :=
  ⟨fun a ha => ⟨trivial, h a ha⟩, fun e he hu' => absurd hu' (hu e he)⟩

theorem Judge.and_post {A : Prop} {Q R : α → Prop} {c : Except (AErr I) α} (h : Judge A Q c)
    (hp : Post R c) : Judge A (fun a => Q a ∧ R a) c :=
  ⟨fun a ha => ⟨(h.1 a ha).1, (h.1 a ha).2, hp a ha⟩, h.2⟩

theorem Judge.imp {A : Prop} {Q R : α → Prop} {c : Except (AErr I) α} (h : Judge A Q c)
    (hp : ∀ a, Q a → R a) : Judge A R c :=
  ⟨fun a ha => ⟨(h.1 a ha).1, hp a (h.1 a ha).2⟩, h.2⟩

/-! ### Names -/

theorem lookupBind_isSome (b : List (Str × SlotInfo)) (sym : Str) :
    (lookupBind b sym).isSome ↔ sym ∈ b.map Prod.fst := by
  induction b with
  | nil => simp [lookupBind]
  | cons a b ih =>
    obtain ⟨k, v⟩ := a
    simp only [lookupBind, List.map_cons, List.mem_cons, ← ih]
    cases h : lookupBind b sym with
    | some w => simp
    | none =>
      by_cases hk : k = sym
      · simp [hk]
      · simp [hk, Ne.symm hk]

theorem lookupBind_mem {b : List (Str × SlotInfo)} {sym : Str} {s : SlotInfo}
    (h : lookupBind b sym = some s) : (sym, s) ∈ b := by
  induction b with
  | nil => simp [lookupBind] at h
  | cons a b ih =>
    obtain ⟨k, v⟩ := a
    simp only [lookupBind] at h
    cases hb : lookupBind b sym with
    | some w => rw [hb] at h; cases h; exact List.mem_cons_of_mem _ (ih hb)
    | none =>
      rw [hb] at h
      by_cases hk : k = sym
      · simp [hk] at h; simp [hk, h]
      · simp [hk] at h

/-- The symbols in scope. -/
def SameNames (S : List Str) (b : List (Str × SlotInfo)) : Prop := ∀ x, x ∈ S ↔ x ∈ b.map Prod.fst

/-- A slot was found. -/
def Found (q : Option Slot → Prop) : Prop := ∀ sl, q (some sl)

theorem resolve_judge {S : List Str} {b : List (Str × SlotInfo)} (hS : SameNames S b) (sym : Str)
    (e : AErr I) {q : Option Slot → Prop} (hq : Found q) :
    Judge (sym ∈ S) q (resolve b sym e : Except (AErr I) (Option Slot)) := by
  unfold resolve
  have h := lookupBind_isSome b sym
  cases hl : lookupBind b sym with
  | some s =>
    rw [hl] at h
    exact Judge.pure ((hS sym).2 (h.1 rfl)) (hq _)
  | none =>
    rw [hl] at h
    exact Judge.error (fun _ hm => by have := h.2 ((hS sym).1 hm); simp at this)

section
variable {S : List Str} {b : List (Str × SlotInfo)} (hS : SameNames S b) {q : Option Slot → Prop}
  (hq : Found q)
include hS hq

mutual
theorem analyseExpr_judge : ∀ e : Expr, Judge (e.uses (· ∈ S)) (fun e' => e'.reads q)
    (analyseExpr b e : Except (AErr I) Expr)
  | .root _ e => by
    simp only [analyseExpr, Expr.uses]
    exact (analyseExpr_judge e).map (fun a h => .pure trivial (by simpa only [Expr.reads] using h))
  | .tagUse sym _ => by
    simp only [analyseExpr, Expr.uses]
    exact (resolve_judge hS _ _ hq).map
      (fun a h => .pure trivial (by simpa only [Expr.reads] using h))
  | .varUse name _ => by
    simp only [analyseExpr, Expr.uses]
    exact (resolve_judge hS _ _ hq).map
      (fun a h => .pure trivial (by simpa only [Expr.reads] using h))
  | .factor a t _ => by
    simp only [analyseExpr, Expr.uses]
    exact (analyseExpr_judge a).bind (fun a ha => (analyseTails_judge t).map (fun t ht =>
      .pure trivial (by simp only [Expr.reads]; exact ⟨ha, ht⟩)))
  | .chain _ a _ es => by
    simp only [analyseExpr, Expr.uses]
    exact (analyseExpr_judge a).bind (fun a ha => (analyseExprs_judge es).map (fun t ht =>
      .pure trivial (by simp only [Expr.reads]; exact ⟨ha, ht⟩)))
  | .concat es => by
    simp only [analyseExpr, Expr.uses]
    exact (analyseExprs_judge es).map
      (fun a h => .pure trivial (by simpa only [Expr.reads] using h))
  | .bits _ a es => by
    simp only [analyseExpr, Expr.uses]
    exact (analyseExpr_judge a).bind (fun a ha => (analyseExprs_judge es).map (fun t ht =>
      .pure trivial (by simp only [Expr.reads]; exact ⟨ha, ht⟩)))
  | .pipeline a es => by
    simp only [analyseExpr, Expr.uses]
    exact (analyseExpr_judge a).bind (fun a ha => (analyseExprs_judge es).map (fun t ht =>
      .pure trivial (by simp only [Expr.reads]; exact ⟨ha, ht⟩)))
  | .notTest _ e => by
    simp only [analyseExpr, Expr.uses]
    exact (analyseExpr_judge e).map (fun a h => .pure trivial (by simpa only [Expr.reads] using h))
  | .andTest a es => by
    simp only [analyseExpr, Expr.uses]
    exact (analyseExpr_judge a).bind (fun a ha => (analyseExprs_judge es).map (fun t ht =>
      .pure trivial (by simp only [Expr.reads]; exact ⟨ha, ht⟩)))
  | .orTest a es => by
    simp only [analyseExpr, Expr.uses]
    exact (analyseExpr_judge a).bind (fun a ha => (analyseExprs_judge es).map (fun t ht =>
      .pure trivial (by simp only [Expr.reads]; exact ⟨ha, ht⟩)))
  | .ifElse x t y => by
    simp only [analyseExpr, Expr.uses]
    exact (analyseExpr_judge x).bind (fun x hx => (analyseExpr_judge t).bind (fun t ht =>
      (analyseExprOpt_judge y).map (fun y hy =>
        .pure trivial (by simp only [Expr.reads]; exact ⟨hx, ht, hy⟩))))
  | .list es => by
    simp only [analyseExpr, Expr.uses]
    exact (analyseExprs_judge es).map
      (fun a h => .pure trivial (by simpa only [Expr.reads] using h))
  | .tuple es => by
    simp only [analyseExpr, Expr.uses]
    exact (analyseExprs_judge es).map
      (fun a h => .pure trivial (by simpa only [Expr.reads] using h))
  | .set es => by
    simp only [analyseExpr, Expr.uses]
    exact (analyseExprs_judge es).map
      (fun a h => .pure trivial (by simpa only [Expr.reads] using h))
  | .dict es => by
    simp only [analyseExpr, Expr.uses]
    exact (analyseExprs_judge es).map
      (fun a h => .pure trivial (by simpa only [Expr.reads] using h))
  | .format es => by
    simp only [analyseExpr, Expr.uses]
    exact (analyseExprs_judge es).map
      (fun a h => .pure trivial (by simpa only [Expr.reads] using h))
  | .static _ => by
    simp only [analyseExpr, Expr.uses]; exact .pure trivial (by simp only [Expr.reads])
  | .strLit _ => by
    simp only [analyseExpr, Expr.uses]; exact .pure trivial (by simp only [Expr.reads])
  | .number _ => by
    simp only [analyseExpr, Expr.uses]; exact .pure trivial (by simp only [Expr.reads])
  | .boolean _ => by
    simp only [analyseExpr, Expr.uses]; exact .pure trivial (by simp only [Expr.reads])
  | .noneLit => by
    simp only [analyseExpr, Expr.uses]; exact .pure trivial (by simp only [Expr.reads])
  | .sliceNone => by
    simp only [analyseExpr, Expr.uses]; exact .pure trivial (by simp only [Expr.reads])
theorem analyseExprs_judge : ∀ es : List Expr, Judge (Expr.usesAll (· ∈ S) es)
    (fun es' => Expr.readsAll q es') (analyseExprs b es : Except (AErr I) (List Expr))
  | [] => by simp only [analyseExprs, Expr.usesAll]; exact .pure trivial (by simp only [Expr.readsAll])
  | e :: es => by
    simp only [analyseExprs, Expr.usesAll]
    exact (analyseExpr_judge e).bind (fun a ha => (analyseExprs_judge es).map (fun t ht =>
      .pure trivial (by simp only [Expr.readsAll]; exact ⟨ha, ht⟩)))
theorem analyseExprOpt_judge : ∀ o : Option Expr, Judge (Expr.usesOpt (· ∈ S) o)
    (fun o' => Expr.readsOpt q o') (analyseExprOpt b o : Except (AErr I) (Option Expr))
  | .none => by
    simp only [analyseExprOpt, Expr.usesOpt]; exact .pure trivial (by simp only [Expr.readsOpt])
  | some e => by
    simp only [analyseExprOpt, Expr.usesOpt]
    exact (analyseExpr_judge e).map
      (fun a h => .pure trivial (by simpa only [Expr.readsOpt] using h))
theorem analyseTails_judge : ∀ ts : List Tail, Judge (Tail.usesAll (· ∈ S) ts)
    (fun ts' => Tail.readsAll q ts') (analyseTails b ts : Except (AErr I) (List Tail))
  | [] => by simp only [analyseTails, Tail.usesAll]; exact .pure trivial (by simp only [Tail.readsAll])
  | e :: es => by
    simp only [analyseTails, Tail.usesAll]
    exact (analyseTail_judge e).bind (fun a ha => (analyseTails_judge es).map (fun t ht =>
      .pure trivial (by simp only [Tail.readsAll]; exact ⟨ha, ht⟩)))
theorem analyseTail_judge : ∀ t : Tail, Judge (t.uses (· ∈ S)) (fun t' => t'.reads q)
    (analyseTail b t : Except (AErr I) Tail)
  | .call _ es => by
    simp only [analyseTail, Tail.uses]
    exact (analyseExprs_judge es).map
      (fun a h => .pure trivial (by simpa only [Tail.reads] using h))
  | .partialCall _ es => by
    simp only [analyseTail, Tail.uses]
    exact (analyseExprs_judge es).map
      (fun a h => .pure trivial (by simpa only [Tail.reads] using h))
  | .index es => by
    simp only [analyseTail, Tail.uses]
    exact (analyseExprs_judge es).map
      (fun a h => .pure trivial (by simpa only [Tail.reads] using h))
  | .member _ => by simp only [analyseTail, Tail.uses]; exact .pure trivial (by simp only [Tail.reads])
end

theorem analyseLine_judge (l : Line) : Judge (l.uses (· ∈ S)) (fun l' => l'.reads q)
    (analyseLine b l : Except (AErr I) Line) := by
  cases l with
  | verbat s => exact .pure trivial trivial
  | normal ps => exact (analyseExprs_judge hS hq ps).map (fun a h => .pure trivial h)
  | markup ps => exact (analyseExprs_judge hS hq ps).map (fun a h => .pure trivial h)

theorem analyseItem_judge (i : TextItem) : Judge (i.uses (· ∈ S)) (fun i' => i'.reads q)
    (analyseItem b i : Except (AErr I) TextItem) := by
  cases i with
  | line l => exact (analyseLine_judge hS hq l).map (fun a h => .pure trivial h)
  | margin _ => exact .pure trivial trivial
  | indent _ => exact .pure trivial trivial
  | dedent _ => exact .pure trivial trivial

theorem analyseItems_judge (is : List TextItem) : Judge (∀ i ∈ is, i.uses (· ∈ S))
    (fun is' => ∀ i ∈ is', i.reads q) (analyseItems b is : Except (AErr I) (List TextItem)) := by
  induction is with
  | nil => exact .pure (by simp) (by simp)
  | cons i is ih =>
    simp only [analyseItems, List.forall_mem_cons]
    exact (analyseItem_judge hS hq i).bind (fun a ha => ih.map (fun t ht =>
      .pure trivial (by simp only [List.forall_mem_cons]; exact ⟨ha, ht⟩)))

theorem analyseNamed_judge (l : List (Str × Expr)) : Judge (∀ n ∈ l, n.2.uses (· ∈ S))
    (fun l' => ∀ n ∈ l', n.2.reads q) (analyseNamed b l : Except (AErr I) _) := by
  induction l with
  | nil => exact .pure (by simp) (by simp)
  | cons i is ih =>
    obtain ⟨n, e⟩ := i
    simp only [analyseNamed, List.forall_mem_cons]
    exact (analyseExpr_judge hS hq e).bind (fun a ha => ih.map (fun t ht =>
      .pure trivial (by simp only [List.forall_mem_cons]; exact ⟨ha, ht⟩)))

theorem analyseTag_judge (t : TagExp) : Judge (t.uses (· ∈ S)) (fun t' => t'.reads q)
    (analyseTag b t : Except (AErr I) TagExp) := by
  cases t with
  | tag name s us ns =>
    simp only [analyseTag, TagExp.uses]
    exact (analyseExprs_judge hS hq us).bind (fun u hu => (analyseNamed_judge hS hq ns).bind
      (fun n hn => (resolve_judge hS _ _ hq).map (fun s hs => .pure trivial ⟨hu, hn, hs⟩)))
  | null => exact .pure trivial trivial

theorem analyseTags_judge (ts : List TagExp) : Judge (∀ t ∈ ts, t.uses (· ∈ S))
    (fun ts' => ∀ t ∈ ts', t.reads q) (analyseTags b ts : Except (AErr I) (List TagExp)) := by
  induction ts with
  | nil => exact .pure (by simp) (by simp)
  | cons i is ih =>
    simp only [analyseTags, List.forall_mem_cons]
    exact (analyseTag_judge hS hq i).bind (fun a ha => ih.map (fun t ht =>
      .pure trivial (by simp only [List.forall_mem_cons]; exact ⟨ha, ht⟩)))

/-- Only the slots of the defaults are changed. -/
theorem analyseDefaults_judge (as : List AttrDef) :
    Judge (∀ a ∈ as, Expr.usesOpt (· ∈ S) a.default)
      (fun as' => (∀ a ∈ as', Expr.readsOpt q a.default) ∧ as'.map (·.name) = as.map (·.name))
      (analyseDefaults b as : Except (AErr I) (List AttrDef)) := by
  induction as with
  | nil => exact .pure (by simp) (by simp)
  | cons a as ih =>
    simp only [analyseDefaults, List.forall_mem_cons]
    exact (analyseExprOpt_judge hS hq a.default).bind (fun e he => ih.map (fun t ht =>
      .pure trivial ⟨by simp only [List.forall_mem_cons]; exact ⟨he, ht.1⟩, by simp [ht.2]⟩))

end
end
end Verif
