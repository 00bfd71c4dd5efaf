import Verif.Spec.Mentions
import Verif.Spec.Fresh
import Verif.Lemmas.AnalyseParts
import Verif.Lemmas.ReadsMono
import Verif.Lemmas.Visible

/-! Analysis with more symbols in the context, which the script does not mention. -/

set_option linter.unusedSectionVars false

namespace Verif
open Py Spec

section
variable {P I α β : Type}

/-- More symbols below. -/
def Ctx.under (xb : List (Str × SlotInfo)) (c : Ctx) : Ctx := { c with binds := xb ++ c.binds }

/-- All symbols satisfy `p`, and all slots are numbered from `m`. -/
structure Ctx.Above (p : Str → Prop) (m : Slot) (c : Ctx) : Prop where
  next : m ≤ c.next
  binds : ∀ b ∈ c.binds, p b.1 ∧ m ≤ b.2.id

/-- Slots numbered from `m`. -/
abbrev Late (m : Slot) : Option Slot → Prop := Spec.Known (fun sl => m ≤ sl)

/-- The same error, or the same result in contexts that differ in `xb` only. -/
def Alike (xb : List (Str × SlotInfo)) (p : Str → Prop) (m : Slot) (Q : α → Prop) (r r' : Except (AErr I) (α × Ctx)) : Prop :=
  (∃ e, r = .error e ∧ r' = .error e) ∨ ∃ a c, r = .ok (a, c) ∧ r' = .ok (a, c.under xb) ∧ c.Above p m ∧ Q a

section
variable {xb : List (Str × SlotInfo)} {p : Str → Prop} {m : Slot}

theorem Alike.pure {Q : α → Prop} {a : α} {c : Ctx} (hc : c.Above p m) (h : Q a) :
    Alike xb p m Q (Pure.pure (a, c) : Except (AErr I) _) (Pure.pure (a, c.under xb)) := .inr ⟨a, c, rfl, rfl, hc, h⟩

theorem Alike.error {Q : α → Prop} {e : AErr I} : Alike xb p m Q (.error e : Except (AErr I) (α × Ctx)) (.error e) := .inl ⟨e, rfl, rfl⟩

theorem Alike.bind {Q : α → Prop} {R : β → Prop} {r r' : Except (AErr I) (α × Ctx)} {f f' : α × Ctx → Except (AErr I) (β × Ctx)}
    (h : Alike xb p m Q r r') (hf : ∀ a c, c.Above p m → Q a → Alike xb p m R (f (a, c)) (f' (a, c.under xb))) :
    Alike xb p m R (r >>= f) (r' >>= f') := by
  rcases h with ⟨e, rfl, rfl⟩ | ⟨a, c, rfl, rfl, hc, hq⟩
  · exact .inl ⟨e, rfl, rfl⟩
  · exact hf a c hc hq

/-- When the context is only read. -/
theorem Alike.first {Q : α → Prop} {R : β → Prop} {r r' : Except (AErr I) α} {f f' : α → Except (AErr I) (β × Ctx)}
    (h : r' = r) (hq : Post Q r) (hf : ∀ a, Q a → Alike xb p m R (f a) (f' a)) :
    Alike xb p m R (r >>= f) (r' >>= f') := by
  subst h
  cases r' with
  | error e => exact .inl ⟨e, rfl, rfl⟩
  | ok a => exact hf a (hq a rfl)

theorem Alike.imp {Q R : α → Prop} {r r' : Except (AErr I) (α × Ctx)} (h : Alike xb p m Q r r') (hq : ∀ a, Q a → R a) :
    Alike xb p m R r r' := by
  rcases h with h | ⟨a, c, h1, h2, h3, h4⟩
  · exact .inl h
  · exact .inr ⟨a, c, h1, h2, h3, hq a h4⟩

/-! ### Expressions -/

section
variable {b : List (Str × SlotInfo)} (hx : ∀ x ∈ xb, ¬ p x.1)
include hx

theorem lookupBind_under {sym : Str} (h : p sym) : lookupBind (xb ++ b) sym = lookupBind b sym := by
  rw [lookupBind_app]
  cases lookupBind b sym with
  | some s => rfl
  | none =>
    cases hl : lookupBind xb sym with
    | none => rfl
    | some s => exact absurd h (hx _ (lookupBind_mem hl))

theorem resolve_under {sym : Str} (h : p sym) (e : AErr I) : resolve (xb ++ b) sym e = resolve b sym e := by
  unfold resolve
  rw [lookupBind_under hx h]

mutual
theorem analyseExpr_under : ∀ e : Expr, e.uses p → (analyseExpr (xb ++ b) e : Except (AErr I) _) = analyseExpr b e
  | .root _ e => by simp only [Expr.uses, analyseExpr]; intro w; rw [analyseExpr_under e w]
  | .tagUse _ _ => by simp only [Expr.uses, analyseExpr]; intro w; rw [resolve_under hx w]
  | .varUse _ _ => by simp only [Expr.uses, analyseExpr]; intro w; rw [resolve_under hx w]
  | .factor a ts _ => by simp only [Expr.uses, analyseExpr]; intro w; rw [analyseExpr_under a w.1, analyseTails_under ts w.2]
  | .chain _ a _ es => by simp only [Expr.uses, analyseExpr]; intro w; rw [analyseExpr_under a w.1, analyseExprs_under es w.2]
  | .concat es => by simp only [Expr.uses, analyseExpr]; intro w; rw [analyseExprs_under es w]
  | .bits _ a es => by simp only [Expr.uses, analyseExpr]; intro w; rw [analyseExpr_under a w.1, analyseExprs_under es w.2]
  | .pipeline a es => by simp only [Expr.uses, analyseExpr]; intro w; rw [analyseExpr_under a w.1, analyseExprs_under es w.2]
  | .notTest _ e => by simp only [Expr.uses, analyseExpr]; intro w; rw [analyseExpr_under e w]
  | .andTest a es => by simp only [Expr.uses, analyseExpr]; intro w; rw [analyseExpr_under a w.1, analyseExprs_under es w.2]
  | .orTest a es => by simp only [Expr.uses, analyseExpr]; intro w; rw [analyseExpr_under a w.1, analyseExprs_under es w.2]
  | .ifElse x t y => by
    simp only [Expr.uses, analyseExpr]; intro w
    rw [analyseExpr_under x w.1, analyseExpr_under t w.2.1, analyseExprOpt_under y w.2.2]
  | .list es => by simp only [Expr.uses, analyseExpr]; intro w; rw [analyseExprs_under es w]
  | .tuple es => by simp only [Expr.uses, analyseExpr]; intro w; rw [analyseExprs_under es w]
  | .set es => by simp only [Expr.uses, analyseExpr]; intro w; rw [analyseExprs_under es w]
  | .dict es => by simp only [Expr.uses, analyseExpr]; intro w; rw [analyseExprs_under es w]
  | .format es => by simp only [Expr.uses, analyseExpr]; intro w; rw [analyseExprs_under es w]
  | .static _ => by simp only [analyseExpr]; exact fun _ => trivial
  | .strLit _ => by simp only [analyseExpr]; exact fun _ => trivial
  | .number _ => by simp only [analyseExpr]; exact fun _ => trivial
  | .boolean _ => by simp only [analyseExpr]; exact fun _ => trivial
  | .noneLit => by simp only [analyseExpr]; exact fun _ => trivial
  | .sliceNone => by simp only [analyseExpr]; exact fun _ => trivial
theorem analyseExprs_under : ∀ es : List Expr, Expr.usesAll p es → (analyseExprs (xb ++ b) es : Except (AErr I) _) = analyseExprs b es
  | [] => by simp only [analyseExprs]; exact fun _ => trivial
  | e :: es => by simp only [Expr.usesAll, analyseExprs]; intro w; rw [analyseExpr_under e w.1, analyseExprs_under es w.2]
theorem analyseExprOpt_under : ∀ o : Option Expr, Expr.usesOpt p o → (analyseExprOpt (xb ++ b) o : Except (AErr I) _) = analyseExprOpt b o
  | .none => by simp only [analyseExprOpt]; exact fun _ => trivial
  | some e => by simp only [Expr.usesOpt, analyseExprOpt]; intro w; rw [analyseExpr_under e w]
theorem analyseTails_under : ∀ ts : List Tail, Tail.usesAll p ts → (analyseTails (xb ++ b) ts : Except (AErr I) _) = analyseTails b ts
  | [] => by simp only [analyseTails]; exact fun _ => trivial
  | t :: ts => by simp only [Tail.usesAll, analyseTails]; intro w; rw [analyseTail_under t w.1, analyseTails_under ts w.2]
theorem analyseTail_under : ∀ t : Tail, t.uses p → (analyseTail (xb ++ b) t : Except (AErr I) _) = analyseTail b t
  | .call _ es => by simp only [Tail.uses, analyseTail]; intro w; rw [analyseExprs_under es w]
  | .partialCall _ es => by simp only [Tail.uses, analyseTail]; intro w; rw [analyseExprs_under es w]
  | .index es => by simp only [Tail.uses, analyseTail]; intro w; rw [analyseExprs_under es w]
  | .member _ => by simp only [analyseTail]; exact fun _ => trivial
end

end

/-! Slots of expressions -/

section
variable {b : List (Str × SlotInfo)} (hb : ∀ x ∈ b, m ≤ x.2.id)
include hb

theorem resolve_late (sym : Str) (e : AErr I) : Post (Late m) (resolve b sym e : Except (AErr I) _) := by
  unfold resolve
  cases hl : lookupBind b sym with
  | none => exact .error
  | some s => exact .ok (fun sl h => by cases h; exact hb _ (lookupBind_mem hl))

mutual
theorem analyseExpr_late : ∀ e : Expr, Post (fun e' => e'.reads (Late m)) (analyseExpr b e : Except (AErr I) _)
  | .root _ e => by
    simp only [analyseExpr]; exact (analyseExpr_late e).bind (fun a h => .pure (by simp only [Expr.reads]; exact h))
  | .tagUse _ _ => by
    simp only [analyseExpr]; exact (resolve_late hb _ _).bind (fun a h => .pure (by simp only [Expr.reads]; exact h))
  | .varUse _ _ => by
    simp only [analyseExpr]; exact (resolve_late hb _ _).bind (fun a h => .pure (by simp only [Expr.reads]; exact h))
  | .factor a ts _ => by
    simp only [analyseExpr]
    exact (analyseExpr_late a).bind (fun a h => (analyseTails_late ts).bind (fun a' h' => .pure (by simp only [Expr.reads]; exact ⟨h, h'⟩)))
  | .chain _ a _ es => by
    simp only [analyseExpr]
    exact (analyseExpr_late a).bind (fun a h => (analyseExprs_late es).bind (fun a' h' => .pure (by simp only [Expr.reads]; exact ⟨h, h'⟩)))
  | .concat es => by
    simp only [analyseExpr]; exact (analyseExprs_late es).bind (fun a h => .pure (by simp only [Expr.reads]; exact h))
  | .bits _ a es => by
    simp only [analyseExpr]
    exact (analyseExpr_late a).bind (fun a h => (analyseExprs_late es).bind (fun a' h' => .pure (by simp only [Expr.reads]; exact ⟨h, h'⟩)))
  | .pipeline a es => by
    simp only [analyseExpr]
    exact (analyseExpr_late a).bind (fun a h => (analyseExprs_late es).bind (fun a' h' => .pure (by simp only [Expr.reads]; exact ⟨h, h'⟩)))
  | .notTest _ e => by
    simp only [analyseExpr]; exact (analyseExpr_late e).bind (fun a h => .pure (by simp only [Expr.reads]; exact h))
  | .andTest a es => by
    simp only [analyseExpr]
    exact (analyseExpr_late a).bind (fun a h => (analyseExprs_late es).bind (fun a' h' => .pure (by simp only [Expr.reads]; exact ⟨h, h'⟩)))
  | .orTest a es => by
    simp only [analyseExpr]
    exact (analyseExpr_late a).bind (fun a h => (analyseExprs_late es).bind (fun a' h' => .pure (by simp only [Expr.reads]; exact ⟨h, h'⟩)))
  | .ifElse x t y => by
    simp only [analyseExpr]
    exact (analyseExpr_late x).bind (fun a h => (analyseExpr_late t).bind (fun a' h' => (analyseExprOpt_late y).bind
      (fun a'' h'' => .pure (by simp only [Expr.reads]; exact ⟨h, h', h''⟩))))
  | .list es => by
    simp only [analyseExpr]; exact (analyseExprs_late es).bind (fun a h => .pure (by simp only [Expr.reads]; exact h))
  | .tuple es => by
    simp only [analyseExpr]; exact (analyseExprs_late es).bind (fun a h => .pure (by simp only [Expr.reads]; exact h))
  | .set es => by
    simp only [analyseExpr]; exact (analyseExprs_late es).bind (fun a h => .pure (by simp only [Expr.reads]; exact h))
  | .dict es => by
    simp only [analyseExpr]; exact (analyseExprs_late es).bind (fun a h => .pure (by simp only [Expr.reads]; exact h))
  | .format es => by
    simp only [analyseExpr]; exact (analyseExprs_late es).bind (fun a h => .pure (by simp only [Expr.reads]; exact h))
  | .static _ => by simp only [analyseExpr]; exact .pure (by simp only [Expr.reads])
  | .strLit _ => by simp only [analyseExpr]; exact .pure (by simp only [Expr.reads])
  | .number _ => by simp only [analyseExpr]; exact .pure (by simp only [Expr.reads])
  | .boolean _ => by simp only [analyseExpr]; exact .pure (by simp only [Expr.reads])
  | .noneLit => by simp only [analyseExpr]; exact .pure (by simp only [Expr.reads])
  | .sliceNone => by simp only [analyseExpr]; exact .pure (by simp only [Expr.reads])
theorem analyseExprs_late : ∀ es : List Expr, Post (Expr.readsAll (Late m)) (analyseExprs b es : Except (AErr I) _)
  | [] => by simp only [analyseExprs]; exact .pure (by simp only [Expr.readsAll])
  | e :: es => by
    simp only [analyseExprs]
    exact (analyseExpr_late e).bind (fun a h => (analyseExprs_late es).bind (fun a' h' => .pure (by simp only [Expr.readsAll]; exact ⟨h, h'⟩)))
theorem analyseExprOpt_late : ∀ o : Option Expr, Post (Expr.readsOpt (Late m)) (analyseExprOpt b o : Except (AErr I) _)
  | .none => by simp only [analyseExprOpt]; exact .pure (by simp only [Expr.readsOpt])
  | some e => by
    simp only [analyseExprOpt]; exact (analyseExpr_late e).bind (fun a h => .pure (by simp only [Expr.readsOpt]; exact h))
theorem analyseTails_late : ∀ ts : List Tail, Post (Tail.readsAll (Late m)) (analyseTails b ts : Except (AErr I) _)
  | [] => by simp only [analyseTails]; exact .pure (by simp only [Tail.readsAll])
  | t :: ts => by
    simp only [analyseTails]
    exact (analyseTail_late t).bind (fun a h => (analyseTails_late ts).bind (fun a' h' => .pure (by simp only [Tail.readsAll]; exact ⟨h, h'⟩)))
theorem analyseTail_late : ∀ t : Tail, Post (fun t' => t'.reads (Late m)) (analyseTail b t : Except (AErr I) _)
  | .call _ es => by
    simp only [analyseTail]; exact (analyseExprs_late es).bind (fun a h => .pure (by simp only [Tail.reads]; exact h))
  | .partialCall _ es => by
    simp only [analyseTail]; exact (analyseExprs_late es).bind (fun a h => .pure (by simp only [Tail.reads]; exact h))
  | .index es => by
    simp only [analyseTail]; exact (analyseExprs_late es).bind (fun a h => .pure (by simp only [Tail.reads]; exact h))
  | .member _ => by simp only [analyseTail]; exact .pure (by simp only [Tail.reads])
end

end

/-! ### Lines and tags -/

section
variable {c : Ctx} (hx : ∀ x ∈ xb, ¬ p x.1) (hc : c.Above p m)
include hx hc

theorem analyseLine_alike (l : Line) (w : l.uses p) :
    (analyseLine (c.under xb).binds l : Except (AErr I) _) = analyseLine c.binds l ∧ Post (fun l' => l'.reads (Late m)) (analyseLine c.binds l : Except (AErr I) _) := by
  have hb : ∀ x ∈ c.binds, m ≤ x.2.id := fun x h => (hc.binds x h).2
  cases l with
  | verbat s => exact ⟨rfl, .pure trivial⟩
  | normal ps =>
    refine ⟨?_, (analyseExprs_late hb ps).bind (fun a h => .pure h)⟩
    simp only [analyseLine, Ctx.under]; rw [analyseExprs_under hx ps w]
  | markup ps =>
    refine ⟨?_, (analyseExprs_late hb ps).bind (fun a h => .pure h)⟩
    simp only [analyseLine, Ctx.under]; rw [analyseExprs_under hx ps w]

theorem analyseItem_alike (i : TextItem) (w : i.uses p) :
    (analyseItem (c.under xb).binds i : Except (AErr I) _) = analyseItem c.binds i ∧ Post (fun l' => l'.reads (Late m)) (analyseItem c.binds i : Except (AErr I) _) := by
  cases i with
  | line l =>
    obtain ⟨h1, h2⟩ := analyseLine_alike (I := I) hx hc l w
    simp only [analyseItem]
    exact ⟨by rw [h1], h2.bind (fun a h => .pure h)⟩
  | _ => exact ⟨rfl, .pure trivial⟩

theorem analyseItems_alike (is : List TextItem) (w : ∀ i ∈ is, i.uses p) :
    (analyseItems (c.under xb).binds is : Except (AErr I) _) = analyseItems c.binds is ∧
      Post (fun l => ∀ i ∈ l, i.reads (Late m)) (analyseItems c.binds is : Except (AErr I) _) := by
  induction is with
  | nil => exact ⟨rfl, .pure (by simp)⟩
  | cons i is ih =>
    obtain ⟨h1, h2⟩ := analyseItem_alike (I := I) hx hc i (w i (by simp))
    obtain ⟨k1, k2⟩ := ih (fun j hj => w j (by simp [hj]))
    simp only [analyseItems]
    refine ⟨by rw [h1, k1], h2.bind (fun a h => k2.bind (fun l k => .pure ?_))⟩
    intro j hj
    rcases List.mem_cons.1 hj with rfl | hj
    · exact h
    · exact k j hj

theorem analyseNamed_alike (ns : List (Str × Expr)) (w : ∀ n ∈ ns, n.2.uses p) :
    (analyseNamed (c.under xb).binds ns : Except (AErr I) _) = analyseNamed c.binds ns ∧
      Post (fun l => ∀ n ∈ l, n.2.reads (Late m)) (analyseNamed c.binds ns : Except (AErr I) _) := by
  have hb : ∀ x ∈ c.binds, m ≤ x.2.id := fun x h => (hc.binds x h).2
  induction ns with
  | nil => exact ⟨rfl, .pure (by simp)⟩
  | cons n ns ih =>
    obtain ⟨n, e⟩ := n
    obtain ⟨k1, k2⟩ := ih (fun j hj => w j (by simp [hj]))
    simp only [analyseNamed]
    refine ⟨?_, (analyseExpr_late hb e).bind (fun a h => k2.bind (fun l k => .pure ?_))⟩
    · rw [k1]
      simp only [Ctx.under]
      rw [analyseExpr_under hx e (w (n, e) (by simp))]
    · intro j hj
      rcases List.mem_cons.1 hj with rfl | hj
      · exact h
      · exact k j hj

theorem analyseTag_alike (t : TagExp) (w : t.uses p) :
    (analyseTag (c.under xb).binds t : Except (AErr I) _) = analyseTag c.binds t ∧
      Post (fun t' => t'.reads (Late m)) (analyseTag c.binds t : Except (AErr I) _) := by
  have hb : ∀ x ∈ c.binds, m ≤ x.2.id := fun x h => (hc.binds x h).2
  cases t with
  | null => exact ⟨rfl, .pure trivial⟩
  | tag name s us ns =>
    obtain ⟨w1, w2, w3⟩ := w
    obtain ⟨k1, k2⟩ := analyseNamed_alike (I := I) hx hc ns w2
    simp only [analyseTag]
    refine ⟨?_, (analyseExprs_late hb us).bind (fun a h => k2.bind (fun l k => (resolve_late hb _ _).bind (fun r hr => .pure ⟨h, k, hr⟩)))⟩
    rw [k1]
    simp only [Ctx.under]
    rw [analyseExprs_under hx us w1, resolve_under hx w3]

theorem analyseTags_alike (ts : List TagExp) (w : ∀ t ∈ ts, t.uses p) :
    (analyseTags (c.under xb).binds ts : Except (AErr I) _) = analyseTags c.binds ts ∧
      Post (fun l => ∀ t ∈ l, t.reads (Late m)) (analyseTags c.binds ts : Except (AErr I) _) := by
  induction ts with
  | nil => exact ⟨rfl, .pure (by simp)⟩
  | cons i is ih =>
    obtain ⟨h1, h2⟩ := analyseTag_alike (I := I) hx hc i (w i (by simp))
    obtain ⟨k1, k2⟩ := ih (fun j hj => w j (by simp [hj]))
    simp only [analyseTags]
    refine ⟨by rw [h1, k1], h2.bind (fun a h => k2.bind (fun l k => .pure ?_))⟩
    intro j hj
    rcases List.mem_cons.1 hj with rfl | hj
    · exact h
    · exact k j hj

/-! ### Slots -/

theorem newSlot_alike {sym : Str} (w : p sym) :
    Alike xb p m (fun s => m ≤ s.id) (newSlot c sym : Except (AErr I) _) (newSlot (c.under xb) sym) := by
  unfold newSlot
  split
  · refine .inr ⟨{ id := c.next, depth := c.regular }, { c.push sym { id := c.next, depth := c.regular } with next := c.next + 1 }, rfl, ?_, ⟨?_, ?_⟩, hc.next⟩
    · simp only [Ctx.under, Ctx.push, List.append_assoc]
    · exact Nat.le_succ_of_le hc.next
    · intro b hb
      simp only [Ctx.push, List.mem_append, List.mem_singleton] at hb
      rcases hb with hb | rfl
      · exact hc.binds b hb
      · exact ⟨w, hc.next⟩
  · exact .error

theorem declare_alike {sym : Str} (w : p sym) :
    Alike xb p m (fun s => m ≤ s.id) (declare c sym : Except (AErr I) _) (declare (c.under xb) sym) := by
  unfold declare
  refine (newSlot_alike hx hc w).bind (fun s c1 h1 hs => ?_)
  refine .inr ⟨s, c1.push sym s, rfl, ?_, ⟨h1.next, ?_⟩, hs⟩
  · simp only [Ctx.under, Ctx.push, List.append_assoc]; rfl
  · intro b hb
    simp only [Ctx.push, List.mem_append, List.mem_singleton] at hb
    rcases hb with hb | rfl
    · exact h1.binds b hb
    · exact ⟨w, hs⟩

theorem writeSlot_alike {sym : Str} (w : p sym) :
    Alike xb p m (fun s => m ≤ s.id) (writeSlot c sym : Except (AErr I) _) (writeSlot (c.under xb) sym) := by
  unfold writeSlot
  have e : (c.under xb).get sym = c.get sym := lookupBind_under hx w
  rw [e]
  cases hg : c.get sym with
  | none => exact declare_alike hx hc w
  | some s =>
    show Alike xb p m _ (if s.depth = c.regular then .ok (s, c) else declare c sym)
      (if s.depth = c.regular then .ok (s, c.under xb) else declare (c.under xb) sym)
    split
    · exact .inr ⟨s, c, rfl, rfl, hc, (hc.binds _ (lookupBind_mem hg)).2⟩
    · exact declare_alike hx hc w

theorem readSlot_alike {sym : Str} (read : Bool) (w : p sym) :
    (readSlot (c.under xb) read sym : Except (AErr I) _) = readSlot c read sym ∧ Post (Late m) (readSlot c read sym : Except (AErr I) _) := by
  have hb : ∀ x ∈ c.binds, m ≤ x.2.id := fun x h => (hc.binds x h).2
  unfold readSlot
  cases read with
  | true => exact ⟨resolve_under hx w _, resolve_late hb _ _⟩
  | false => exact ⟨rfl, .ok (fun sl h => nomatch h)⟩

omit hx hc in
theorem Ctx.under_binds : (c.under xb).binds = xb ++ c.binds := rfl

end

section
variable (hx : ∀ x ∈ xb, ¬ p x.1)
include hx

mutual
theorem analyseTarget_alike : ∀ (t : Target) (c : Ctx), c.Above p m → t.onlyNames p →
    Alike xb p m (fun t' => t'.reads (Late m)) (analyseTarget t c : Except (AErr I) _) (analyseTarget t (c.under xb))
  | .var name read _ _, c, hc, w => by
    simp only [Target.onlyNames] at w
    simp only [analyseTarget]
    obtain ⟨h1, h2⟩ := readSlot_alike (I := I) hx hc read w
    refine .first h1 h2 (fun o ho => (writeSlot_alike hx hc w).bind (fun s c1 k1 _ => .pure k1 ?_))
    simp only [Target.reads]; exact fun _ => ho
  | .many ts, c, hc, w => by
    simp only [Target.onlyNames] at w
    simp only [analyseTarget]
    refine (analyseTargets_alike ts c hc w).bind (fun ts' c1 k1 h => .pure k1 ?_)
    simp only [Target.reads]; exact h
theorem analyseTargets_alike : ∀ (ts : List Target) (c : Ctx), c.Above p m → Target.onlyNamesAll p ts →
    Alike xb p m (Target.readsAll (Late m)) (analyseTargets ts c : Except (AErr I) _) (analyseTargets ts (c.under xb))
  | [], c, hc, w => by
    simp only [analyseTargets]
    exact .pure hc (by simp only [Target.readsAll])
  | t :: ts, c, hc, w => by
    simp only [Target.onlyNamesAll] at w
    simp only [analyseTargets]
    refine (analyseTarget_alike t c hc w.1).bind (fun t' c1 k1 h => (analyseTargets_alike ts c1 k1 w.2).bind (fun ts' c2 k2 h' => .pure k2 ?_))
    simp only [Target.readsAll]; exact ⟨h, h'⟩
end

/-! ### Parameters and imports -/

theorem analyseDefaults_alike {c : Ctx} (hc : c.Above p m) (as : List AttrDef) (w : ∀ a ∈ as, a.onlyNames p) :
    (analyseDefaults (c.under xb).binds as : Except (AErr I) _) = analyseDefaults c.binds as ∧
      Post (fun l => ∀ a ∈ l, p ('$' :: a.name) ∧ Expr.readsOpt (Late m) a.default) (analyseDefaults c.binds as : Except (AErr I) _) := by
  have hb : ∀ x ∈ c.binds, m ≤ x.2.id := fun x h => (hc.binds x h).2
  induction as with
  | nil => exact ⟨rfl, .pure (by simp)⟩
  | cons a as ih =>
    obtain ⟨k1, k2⟩ := ih (fun j hj => w j (by simp [hj]))
    have wa := w a (by simp)
    simp only [analyseDefaults]
    refine ⟨?_, (analyseExprOpt_late hb a.default).bind (fun e h => k2.bind (fun l k => .pure ?_))⟩
    · rw [k1]
      simp only [Ctx.under]
      rw [analyseExprOpt_under hx _ wa.2]
    · intro j hj
      rcases List.mem_cons.1 hj with rfl | hj
      · exact ⟨wa.1, h⟩
      · exact k j hj

theorem declareAttrs_alike (as : List AttrDef) (w : ∀ a ∈ as, p ('$' :: a.name) ∧ Expr.readsOpt (Late m) a.default) :
    ∀ c : Ctx, c.Above p m → Alike xb p m (fun l => ∀ a ∈ l, Expr.readsOpt (Late m) a.default)
      (declareAttrs as c : Except (AErr I) _) (declareAttrs as (c.under xb)) := by
  induction as with
  | nil => exact fun c hc => .pure hc (by simp)
  | cons a as ih =>
    intro c hc
    simp only [declareAttrs]
    refine (declare_alike hx hc (w a (by simp)).1).bind (fun s c1 k1 _ => (ih (fun j hj => w j (by simp [hj])) c1 k1).bind
      (fun l c2 k2 h => .pure k2 ?_))
    intro j hj
    rcases List.mem_cons.1 hj with rfl | hj
    · exact (w a (by simp)).2
    · exact h j hj

theorem valueSlots_alike (l : List (Str × Val P)) (w : ∀ x ∈ l, p x.1) : ∀ c : Ctx, c.Above p m →
    Alike xb p m (fun _ => True) (valueSlots l c : Except (AErr I) _) (valueSlots l (c.under xb)) := by
  induction l with
  | nil => exact fun c hc => .pure hc trivial
  | cons a l ih =>
    obtain ⟨sym, v⟩ := a
    intro c hc
    simp only [valueSlots]
    exact (newSlot_alike hx hc (w (sym, v) (by simp))).bind (fun s c1 k1 _ =>
      (ih (fun x hm => w x (by simp [hm])) c1 k1).bind (fun l c2 k2 _ => .pure k2 trivial))

omit hx in
theorem publicSymbols_names (st : StateId) (l : List (Str × Val P)) :
    Post (fun r => ∀ x ∈ r, x.1 ∈ (l.map Prod.fst).filter (fun s => s[1]? ≠ some '_')) (publicSymbols st l : Except (AErr I) _) := by
  induction l with
  | nil => exact .pure (by simp)
  | cons a l ih =>
    obtain ⟨sym, v⟩ := a
    simp only [publicSymbols]
    cases hs : (sym[1]? : Option Char) with
    | none => exact .error
    | some ch =>
      simp only
      refine ih.bind (fun r hr => .pure ?_)
      intro x hm
      simp only [List.map_cons, List.filter_cons, hs]
      split at hm
      · rename_i hne
        rcases List.mem_cons.1 hm with rfl | hm
        · simp [hne]
        · split
          · exact List.mem_cons_of_mem _ (hr x hm)
          · exact hr x hm
      · split
        · exact List.mem_cons_of_mem _ (hr x hm)
        · exact hr x hm

variable {src src' : Source P I} (hm : src'.modules = src.modules) (hs : ∀ y, p y → Dict.get? src'.context y = Dict.get? src.context y)
include hm hs

theorem analyseImport_alike (path : Option Str) (i : ImportItem P) (w : i.onlyNames src path p) (c : Ctx) (hc : c.Above p m) :
    Alike xb p m (fun _ => True) (analyseImport src path i c) (analyseImport src' path i (c.under xb)) := by
  have hl : loadModule src' path = loadModule src path := by unfold loadModule; rw [hm]
  cases i with
  | wild s =>
    simp only [analyseImport]
    rw [hl]
    have hw : Post (fun r : Dict Str (Val P) × StateId => ∀ y ∈ (r.1.map Prod.fst).filter (fun s => s[1]? ≠ some '_'), p y) (loadModule src path) := by
      unfold loadModule
      simp only [ImportItem.onlyNames, wildNames] at w
      cases hp : src.modules path with
      | error x => exact .error
      | ok r => rw [hp] at w; exact .ok w
    refine .first rfl hw ?_
    rintro ⟨symbols, st⟩ hw
    refine .first rfl (publicSymbols_names st symbols) (fun pub hpub => ?_)
    exact (valueSlots_alike hx pub (fun x h => hw _ (hpub x h)) c hc).bind (fun l c1 k1 _ => .pure k1 trivial)
  | name sym ren s =>
    simp only [analyseImport]
    rw [hl]
    split
    · exact .error
    · refine .first rfl (Post.any _) ?_
      rintro ⟨symbols, st⟩ _
      simp only
      cases Dict.get? symbols sym with
      | none => exact .error
      | some v => exact (newSlot_alike hx hc (sym := renamed sym ren) (by cases ren <;> exact w)).bind (fun s c1 k1 _ => .pure k1 trivial)
  | cntx sym ren s =>
    simp only [analyseImport]
    rw [hs sym w.1]
    cases Dict.get? src.context sym with
    | none => exact .error
    | some v => exact (newSlot_alike hx hc (sym := renamed sym ren) (by cases ren <;> exact w.2)).bind (fun s c1 k1 _ => .pure k1 trivial)

theorem analyseImports_alike (path : Option Str) (is : List (ImportItem P)) (w : ∀ i ∈ is, i.onlyNames src path p) : ∀ c : Ctx, c.Above p m →
    Alike xb p m (fun _ => True) (analyseImports src path is c) (analyseImports src' path is (c.under xb)) := by
  induction is with
  | nil => exact fun c hc => .pure hc trivial
  | cons i is ih =>
    intro c hc
    simp only [analyseImports]
    exact (analyseImport_alike hx hm hs path i (w i (by simp)) c hc).bind (fun s c1 k1 _ =>
      (ih (fun x hm => w x (by simp [hm])) c1 k1).bind (fun l c2 k2 _ => .pure k2 trivial))

end

/-! ### Ends of blocks -/

theorem Ctx.Above.sub {c c' : Ctx} (hc : c.Above p m) (hn : c.next ≤ c'.next) (hb : ∀ b ∈ c'.binds, b ∈ c.binds) : c'.Above p m :=
  ⟨Nat.le_trans hc.next hn, fun b h => hc.binds b (hb b h)⟩

theorem leave_under (c0 c : Ctx) : (c0.under xb).leave (c.under xb) = (c0.leave c).under xb := by
  simp only [Ctx.leave, Ctx.under, List.length_append]
  rw [List.take_append, List.take_of_length_le (Nat.le_add_right _ _)]
  congr 2
  · rw [Nat.add_sub_cancel_left]

theorem leave_above {c0 c : Ctx} (hc : c.Above p m) : (c0.leave c).Above p m :=
  hc.sub (Nat.le_refl _) (fun _ h => List.mem_of_mem_take h)

theorem pushnew_under (hx : ∀ x ∈ xb, ¬ p x.1) (ps : List (Str × SlotInfo)) (w : ∀ x ∈ ps, p x.1) :
    ∀ c : Ctx, (c.under xb).pushnew ps = (c.pushnew ps).under xb := by
  induction ps with
  | nil => exact fun c => rfl
  | cons a ps ih =>
    obtain ⟨k, v⟩ := a
    intro c
    have e : (c.under xb).get k = c.get k := lookupBind_under hx (w (k, v) (by simp))
    simp only [Ctx.pushnew]
    rw [e]
    split
    · exact ih (fun x hm => w x (by simp [hm])) c
    · rw [← ih (fun x hm => w x (by simp [hm])) (c.push k v)]
      simp only [Ctx.under, Ctx.push, List.append_assoc]

theorem pushnew_above (ps : List (Str × SlotInfo)) (w : ∀ x ∈ ps, p x.1 ∧ m ≤ x.2.id) : ∀ c : Ctx, c.Above p m → (c.pushnew ps).Above p m := by
  induction ps with
  | nil => exact fun c hc => hc
  | cons a ps ih =>
    obtain ⟨k, v⟩ := a
    intro c hc
    simp only [Ctx.pushnew]
    split
    · exact ih (fun x hm => w x (by simp [hm])) c hc
    · refine ih (fun x hm => w x (by simp [hm])) _ ⟨hc.next, fun b hb => ?_⟩
      simp only [Ctx.push, List.mem_append, List.mem_singleton] at hb
      rcases hb with hb | rfl
      · exact hc.binds b hb
      · exact w _ (by simp)

theorem set_mem {K V : Type} [DecidableEq K] (k : K) (v : V) : ∀ (d : Dict K V) (x : K × V), x ∈ Dict.set d k v → x ∈ d ∨ x = (k, v)
  | [], x, h => by simp only [Dict.set, List.mem_singleton] at h; exact .inr h
  | (k', v') :: d, x, h => by
    simp only [Dict.set] at h
    split at h
    · rename_i e
      rcases List.mem_cons.1 h with rfl | h
      · exact .inr (by rw [e])
      · exact .inl (List.mem_cons_of_mem _ h)
    · rcases List.mem_cons.1 h with rfl | h
      · exact .inl (by simp)
      · exact (set_mem k v d x h).imp (List.mem_cons_of_mem _) id

theorem update_mem {K V : Type} [DecidableEq K] (l : List (K × V)) : ∀ (d : Dict K V) (x : K × V), x ∈ Dict.update d l → x ∈ d ∨ x ∈ l := by
  induction l with
  | nil => exact fun d x h => .inl h
  | cons a l ih =>
    obtain ⟨k, v⟩ := a
    intro d x h
    simp only [Dict.update] at h
    rcases ih _ _ h with h | h
    · rcases set_mem k v d x h with h | rfl
      · exact .inl h
      · exact .inr (by simp)
    · exact .inr (List.mem_cons_of_mem _ h)

theorem merge_under (hx : ∀ x ∈ xb, ¬ p x.1) {c0 c : Ctx} (hc : c.Above p m) :
    (c0.under xb).mergeBranch (c.under xb) = (c0.mergeBranch c).under xb := by
  have hl : (c0.under xb).binds.length = xb.length + c0.binds.length := by simp [Ctx.under]
  have e1 : (c.under xb).binds.take (c0.under xb).binds.length = xb ++ c.binds.take c0.binds.length := by
    rw [hl, Ctx.under_binds, List.take_append, List.take_of_length_le (Nat.le_add_right _ _), Nat.add_sub_cancel_left]
  have e2 : (c.under xb).binds.drop (c0.under xb).binds.length = c.binds.drop c0.binds.length := by
    rw [hl, Ctx.under_binds, List.drop_append, List.drop_of_length_le (Nat.le_add_right _ _), Nat.add_sub_cancel_left, List.nil_append]
  unfold Ctx.mergeBranch
  rw [e1, e2]
  refine pushnew_under hx _ (fun x hm => ?_) { c with binds := c.binds.take c0.binds.length }
  rcases update_mem _ _ _ hm with h | h
  · cases h
  · exact (hc.binds _ (List.mem_of_mem_drop h)).1

theorem merge_above {c0 c : Ctx} (hc : c.Above p m) : (c0.mergeBranch c).Above p m := by
  refine pushnew_above _ (fun x hm => ?_) _ (hc.sub (Nat.le_refl _) (fun _ h => List.mem_of_mem_take h))
  rcases update_mem _ _ _ hm with h | h
  · cases h
  · exact hc.binds _ (List.mem_of_mem_drop h)

/-! ### Statements -/

/-- The slots read by a statement and by the hypertags defined in it are numbered from `m`. -/
def LateStmt (m : Slot) (s : Stmt P) : Prop := s.reads (Late m) ∧ ∀ d ∈ s.defs, d.2.reads (Late m)
def LateAll (m : Slot) (ss : List (Stmt P)) : Prop := Stmt.readsAll (Late m) ss ∧ ∀ d ∈ Stmt.defsAll ss, d.2.reads (Late m)
def LateOpt (m : Slot) (o : Option (Stmt P)) : Prop := Stmt.readsOpt (Late m) o ∧ ∀ d ∈ Stmt.defsOpt o, d.2.reads (Late m)
def LateClause (m : Slot) (o : Expr × Option (Stmt P)) : Prop := Stmt.readsClause (Late m) o ∧ ∀ d ∈ Stmt.defsClause o, d.2.reads (Late m)
def LateClauses (m : Slot) (o : List (Expr × Option (Stmt P))) : Prop :=
  Stmt.readsClauses (Late m) o ∧ ∀ d ∈ Stmt.defsClauses o, d.2.reads (Late m)

theorem late_none (o : Option Slot) (h : o = none) : Late m o := fun sl e => by rw [h] at e; cases e

theorem late_defs {a b : List (DefId × DefInfo P)} (h : ∀ d ∈ a, d.2.reads (Late m)) (h' : ∀ d ∈ b, d.2.reads (Late m)) :
    ∀ d ∈ a ++ b, d.2.reads (Late m) := fun d hd => (List.mem_append.1 hd).elim (h d) (h' d)

theorem DefInfo.reads_mono {q q' : Option Slot → Prop} (h : ∀ o, q o → q' o) {d : DefInfo P} (w : d.reads q) : d.reads q' :=
  ⟨fun a ha => Expr.readsOpt_mono h _ (w.1 a ha), Stmt.reads_mono h _ w.2⟩

theorem late_unslotted {ss : List (Stmt P)} (h : ∀ s ∈ ss, s.unslotted) : LateAll m ss := by
  induction ss with
  | nil => exact ⟨by simp only [Stmt.readsAll], by simp [Stmt.defsAll]⟩
  | cons s ss ih =>
    obtain ⟨h1, h2⟩ := ih (fun x hx => h x (by simp [hx]))
    obtain ⟨k1, k2⟩ := h s (by simp)
    refine ⟨?_, ?_⟩
    · simp only [Stmt.readsAll]; exact ⟨Stmt.reads_mono late_none _ k1, h1⟩
    · simp only [Stmt.defsAll]; exact late_defs (fun d hd => DefInfo.reads_mono late_none (k2 d hd)) h2

theorem leaveProlog_under (b : Stmt P) (c : Ctx) : leaveProlog b (c.under xb) = (leaveProlog b c).under xb := by
  unfold leaveProlog
  split <;> rfl

theorem leaveProlog_above (b : Stmt P) {c : Ctx} (h : c.Above p m) : (leaveProlog b c).Above p m := by
  obtain ⟨e1, _, _, _, e5⟩ := leaveProlog_eq b c
  exact h.sub (Nat.le_of_eq e5.symm) (fun x hx => by rw [e1] at hx; exact hx)

section
variable (hx : ∀ x ∈ xb, ¬ p x.1) {src src' : Source P I} (hm : src'.modules = src.modules)
  (hs : ∀ y, p y → Dict.get? src'.context y = Dict.get? src.context y)
include hx hm hs

mutual
theorem analyse_alike : ∀ (s : Stmt P) (c : Ctx), c.Above p m → s.onlyNames src p → s.tails Stmt.unslotted →
    Alike xb p m (LateStmt m) (analyse src s c) (analyse src' s (c.under xb))
  | .static _, c, hc, _, _ => by
    simp only [analyse]
    exact .pure hc ⟨by simp only [Stmt.reads], by simp [Stmt.defs]⟩
  | .indent _, c, hc, _, _ => by
    simp only [analyse]
    exact .pure hc ⟨by simp only [Stmt.reads], by simp [Stmt.defs]⟩
  | .dedent _, c, hc, _, _ => by
    simp only [analyse]
    exact .pure hc ⟨by simp only [Stmt.reads], by simp [Stmt.defs]⟩
  | .comment, c, hc, _, _ => by
    simp only [analyse]
    exact .pure hc ⟨by simp only [Stmt.reads], by simp [Stmt.defs]⟩
  | .pass, c, hc, _, _ => by
    simp only [analyse]
    exact .pure hc ⟨by simp only [Stmt.reads], by simp [Stmt.defs]⟩
  | .line l, c, hc, w, _ => by
    simp only [analyse]
    simp only [Stmt.onlyNames] at w
    obtain ⟨h1, h2⟩ := analyseLine_alike (I := I) hx hc l w
    exact .first h1 h2 (fun a h => .pure hc ⟨by simp only [Stmt.reads]; exact h, by simp [Stmt.defs]⟩)
  | .xblock _ _ b, c, hc, w, t => by
    simp only [analyse]
    simp only [Stmt.onlyNames] at w
    simp only [Stmt.tails] at t
    rw [leaveProlog_under]
    exact (analyse_alike b _ (leaveProlog_above b hc) w t).bind (fun b' c1 k1 h =>
      .pure k1 ⟨by simp only [Stmt.reads]; exact h.1, by simp only [Stmt.defs]; exact h.2⟩)
  | .text _ items, c, hc, w, _ => by
    simp only [analyse]
    simp only [Stmt.onlyNames] at w
    obtain ⟨h1, h2⟩ := analyseItems_alike (I := I) hx hc items w
    exact .first h1 h2 (fun a h => .pure hc ⟨by simp only [Stmt.reads]; exact h, by simp [Stmt.defs]⟩)
  | .embed e, c, hc, w, _ => by
    simp only [analyse]
    simp only [Stmt.onlyNames] at w
    exact .first (analyseExpr_under hx e w) (analyseExpr_late (fun x h => (hc.binds x h).2) e)
      (fun a h => .pure hc ⟨by simp only [Stmt.reads]; exact h, by simp [Stmt.defs]⟩)
  | .struct tags b, c, hc, w, t => by
    simp only [analyse]
    simp only [Stmt.onlyNames] at w
    simp only [Stmt.tails] at t
    obtain ⟨h1, h2⟩ := analyseTags_alike (I := I) hx hc tags w.1
    refine .first h1 h2 (fun tags' ht => ?_)
    refine (analyse_alike b { c with regular := c.regular + 1 } ⟨hc.next, hc.binds⟩ w.2 t).bind (fun b' c1 k1 h => ?_)
    rw [leave_under]
    exact .pure (leave_above k1) ⟨by simp only [Stmt.reads]; exact ⟨ht, h.1⟩, by simp only [Stmt.defs]; exact h.2⟩
  | .defn id name _ ba as b, c, hc, w, t => by
    simp only [analyse]
    simp only [Stmt.onlyNames] at w
    simp only [Stmt.tails] at t
    obtain ⟨w1, w2, w3⟩ := w
    rw [show (c.under xb).control = c.control from rfl]
    split
    · exact .error
    · have hc1 : Ctx.Above p m { c with regular := c.regular + 1, hypertag := c.hypertag + 1 } := ⟨hc.next, hc.binds⟩
      obtain ⟨b1, b2⟩ := analyseDefaults_alike (I := I) hx hc1 ba.toList (fun a ha => w2 a (List.mem_append_left _ ha))
      obtain ⟨a1, a2⟩ := analyseDefaults_alike (I := I) hx hc1 as (fun a ha => w2 a (List.mem_append_right _ ha))
      refine .first b1 b2 (fun ba1 hba => .first a1 a2 (fun as1 has => ?_))
      refine (declareAttrs_alike hx ba1 hba _ hc1).bind (fun ba2 c2 k2 _ => ?_)
      refine (declareAttrs_alike hx as1 has c2 k2).bind (fun as2 c3 k3 has2 => ?_)
      refine (analyse_alike b c3 k3 w3 t).bind (fun b' c4 k4 h => ?_)
      simp only
      rw [leave_under]
      refine (newSlot_alike hx (leave_above k4) w1).bind (fun s c5 k5 _ => .pure k5 ⟨by simp only [Stmt.reads], ?_⟩)
      simp only [Stmt.defs]
      intro d hd
      rcases List.mem_cons.1 hd with rfl | hd
      · exact ⟨has2, h.1⟩
      · exact h.2 d hd
  | .imports true path items, c, hc, w, _ => by
    simp only [analyse]
    simp only [Stmt.onlyNames] at w
    rw [show (c.under xb).prolog = c.prolog from rfl]
    split
    · exact (analyseImports_alike hx hm hs path items w c hc).bind (fun is c1 k1 _ =>
        .pure k1 ⟨by simp only [Stmt.reads], by simp [Stmt.defs]⟩)
    · exact .error
  | .imports false path items, c, hc, w, _ => by
    simp only [analyse]
    simp only [Stmt.onlyNames] at w
    rw [show (c.under xb).control = c.control from rfl]
    split
    · exact .error
    · exact (analyseImports_alike hx hm hs path items w c hc).bind (fun is c1 k1 _ =>
        .pure k1 ⟨by simp only [Stmt.reads], by simp [Stmt.defs]⟩)
  | .tryBlock bs, c, hc, w, t => by
    simp only [analyse]
    simp only [Stmt.onlyNames] at w
    simp only [Stmt.tails] at t
    exact (analyseBranches_alike bs { c with control := c.control + 1 } ⟨hc.next, hc.binds⟩ w t).bind (fun bs' c1 k1 h =>
      .pure (c := { c1 with control := c.control }) ⟨k1.next, k1.binds⟩ ⟨by simp only [Stmt.reads]; exact h.1, by simp only [Stmt.defs]; exact h.2⟩)
  | .ifBlock cs els, c, hc, w, t => by
    simp only [analyse]
    simp only [Stmt.onlyNames] at w
    simp only [Stmt.tails] at t
    exact (analyseClauses_alike cs { c with control := c.control + 1 } ⟨hc.next, hc.binds⟩ w.1 t.1).bind (fun cs' c1 k1 h =>
      (analyseElse_alike els c1 k1 w.2 t.2).bind (fun els' c2 k2 h' =>
        .pure (c := { c2 with control := c.control }) ⟨k2.next, k2.binds⟩
          ⟨by simp only [Stmt.reads]; exact ⟨h.1, h'.1⟩, by simp only [Stmt.defs]; exact late_defs h.2 h'.2⟩))
  | .elseClause b, c, hc, w, t => by
    simp only [analyse]
    simp only [Stmt.onlyNames] at w
    simp only [Stmt.tails] at t
    exact (analyseOpt_alike b c hc w t).bind (fun b' c1 k1 h =>
      .pure k1 ⟨by simp only [Stmt.reads]; exact h.1, by simp only [Stmt.defs]; exact h.2⟩)
  | .whileBlock e b els, c, hc, w, t => by
    simp only [analyse]
    simp only [Stmt.onlyNames] at w
    simp only [Stmt.tails] at t
    refine .first (analyseExpr_under hx e w.1) (analyseExpr_late (fun x h => (hc.binds x h).2) e) (fun e' he => ?_)
    refine (analyseOpt_alike b { c with control := c.control + 1 } ⟨hc.next, hc.binds⟩ w.2.1 t.1).bind (fun b' c1 k1 h => ?_)
    have := merge_under hx (c0 := { c with control := c.control + 1 }) k1
    simp only
    rw [show ({ c.under xb with control := (c.under xb).control + 1 } : Ctx) = Ctx.under xb { c with control := c.control + 1 } from rfl, this]
    exact (analyseElse_alike els _ (merge_above k1) w.2.2 t.2).bind (fun els' c2 k2 h' =>
      .pure (c := { c2 with control := c.control }) ⟨k2.next, k2.binds⟩
        ⟨by simp only [Stmt.reads]; exact ⟨he, h.1, h'.1⟩, by simp only [Stmt.defs]; exact late_defs h.2 h'.2⟩)
  | .forBlock tg e rest, c, hc, w, t => by
    simp only [analyse]
    simp only [Stmt.onlyNames] at w
    simp only [Stmt.tails] at t
    refine .first (analyseExpr_under hx e w.1) (analyseExpr_late (fun x h => (hc.binds x h).2) e) (fun e' he => ?_)
    refine (analyseTarget_alike hx tg { c with control := c.control + 1 } ⟨hc.next, hc.binds⟩ w.2.1).bind (fun tg' c1 k1 _ => ?_)
    exact (analyseFirst_alike rest c1 k1 w.2.2 t).bind (fun rest' c2 k2 h' =>
      .pure (c := { c2 with control := c.control }) ⟨k2.next, k2.binds⟩
        ⟨by simp only [Stmt.reads]; exact ⟨he, h'.1⟩, by simp only [Stmt.defs]; exact h'.2⟩)
  | .exprBlock e, c, hc, w, _ => by
    simp only [analyse]
    simp only [Stmt.onlyNames] at w
    exact .first (analyseExpr_under hx e w) (analyseExpr_late (fun x h => (hc.binds x h).2) e)
      (fun a h => .pure hc ⟨by simp only [Stmt.reads]; exact h, by simp [Stmt.defs]⟩)
  | .assign tg op e, c, hc, w, _ => by
    simp only [analyse]
    simp only [Stmt.onlyNames] at w
    refine .first (analyseExpr_under hx e w.1) (analyseExpr_late (fun x h => (hc.binds x h).2) e) (fun e' he => ?_)
    exact (analyseTarget_alike hx tg c hc w.2).bind (fun tg' c1 k1 h =>
      .pure k1 ⟨by simp only [Stmt.reads]; exact ⟨he, h⟩, by simp [Stmt.defs]⟩)
  | .body ss, c, hc, w, t => by
    simp only [analyse]
    simp only [Stmt.onlyNames] at w
    simp only [Stmt.tails] at t
    exact (analyseAll_alike ss c hc w t).bind (fun b' c1 k1 h =>
      .pure k1 ⟨by simp only [Stmt.reads]; exact h.1, by simp only [Stmt.defs]; exact h.2⟩)
theorem analyseAll_alike : ∀ (ss : List (Stmt P)) (c : Ctx), c.Above p m → Stmt.onlyNamesAll src p ss → Stmt.tailsAll Stmt.unslotted ss →
    Alike xb p m (LateAll m) (analyseAll src ss c) (analyseAll src' ss (c.under xb))
  | [], c, hc, _, _ => by
    simp only [analyseAll]
    exact .pure hc ⟨by simp only [Stmt.readsAll], by simp [Stmt.defsAll]⟩
  | s :: ss, c, hc, w, t => by
    simp only [analyseAll]
    simp only [Stmt.onlyNamesAll] at w
    simp only [Stmt.tailsAll] at t
    exact (analyse_alike s c hc w.1 t.1).bind (fun s' c1 k1 h => (analyseAll_alike ss c1 k1 w.2 t.2).bind (fun ss' c2 k2 h' =>
      .pure k2 ⟨by simp only [Stmt.readsAll]; exact ⟨h.1, h'.1⟩, by simp only [Stmt.defsAll]; exact late_defs h.2 h'.2⟩))
theorem analyseBranches_alike : ∀ (ss : List (Stmt P)) (c : Ctx), c.Above p m → Stmt.onlyNamesAll src p ss → Stmt.tailsAll Stmt.unslotted ss →
    Alike xb p m (LateAll m) (analyseBranches src ss c) (analyseBranches src' ss (c.under xb))
  | [], c, hc, _, _ => by
    simp only [analyseBranches]
    exact .pure hc ⟨by simp only [Stmt.readsAll], by simp [Stmt.defsAll]⟩
  | s :: ss, c, hc, w, t => by
    simp only [analyseBranches]
    simp only [Stmt.onlyNamesAll] at w
    simp only [Stmt.tailsAll] at t
    refine (analyse_alike s c hc w.1 t.1).bind (fun s' c1 k1 h => ?_)
    simp only
    rw [merge_under hx k1]
    exact (analyseBranches_alike ss _ (merge_above k1) w.2 t.2).bind (fun ss' c2 k2 h' =>
      .pure k2 ⟨by simp only [Stmt.readsAll]; exact ⟨h.1, h'.1⟩, by simp only [Stmt.defsAll]; exact late_defs h.2 h'.2⟩)
theorem analyseClauses_alike : ∀ (cs : List (Expr × Option (Stmt P))) (c : Ctx), c.Above p m → Stmt.onlyNamesClauses src p cs →
    Stmt.tailsClauses Stmt.unslotted cs → Alike xb p m (LateClauses m) (analyseClauses src cs c) (analyseClauses src' cs (c.under xb))
  | [], c, hc, _, _ => by
    simp only [analyseClauses]
    exact .pure hc ⟨by simp only [Stmt.readsClauses], by simp [Stmt.defsClauses]⟩
  | s :: ss, c, hc, w, t => by
    simp only [analyseClauses]
    simp only [Stmt.onlyNamesClauses] at w
    simp only [Stmt.tailsClauses] at t
    refine (analyseClause_alike s c hc w.1 t.1).bind (fun s' c1 k1 h => ?_)
    simp only
    rw [merge_under hx k1]
    exact (analyseClauses_alike ss _ (merge_above k1) w.2 t.2).bind (fun ss' c2 k2 h' =>
      .pure k2 ⟨by simp only [Stmt.readsClauses]; exact ⟨h.1, h'.1⟩, by simp only [Stmt.defsClauses]; exact late_defs h.2 h'.2⟩)
theorem analyseClause_alike : ∀ (cl : Expr × Option (Stmt P)) (c : Ctx), c.Above p m → Stmt.onlyNamesClause src p cl →
    Stmt.tailsClause Stmt.unslotted cl → Alike xb p m (LateClause m) (analyseClause src cl c) (analyseClause src' cl (c.under xb))
  | (e, b), c, hc, w, t => by
    simp only [analyseClause]
    simp only [Stmt.onlyNamesClause] at w
    simp only [Stmt.tailsClause] at t
    refine .first (analyseExpr_under hx e w.1) (analyseExpr_late (fun x h => (hc.binds x h).2) e) (fun e' he => ?_)
    exact (analyseOpt_alike b c hc w.2 t).bind (fun b' c1 k1 h =>
      .pure k1 ⟨by simp only [Stmt.readsClause]; exact ⟨he, h.1⟩, by simp only [Stmt.defsClause]; exact h.2⟩)
theorem analyseElse_alike : ∀ (o : Option (Stmt P)) (c : Ctx), c.Above p m → Stmt.onlyNamesOpt src p o → Stmt.tailsOpt Stmt.unslotted o →
    Alike xb p m (LateOpt m) (analyseElse src o c) (analyseElse src' o (c.under xb))
  | .none, c, hc, _, _ => by
    simp only [analyseElse]
    exact .pure hc ⟨by simp only [Stmt.readsOpt], by simp [Stmt.defsOpt]⟩
  | some s, c, hc, w, t => by
    simp only [analyseElse]
    simp only [Stmt.onlyNamesOpt] at w
    simp only [Stmt.tailsOpt] at t
    refine (analyse_alike s c hc w t).bind (fun s' c1 k1 h => ?_)
    simp only
    rw [merge_under hx k1]
    exact .pure (merge_above k1) ⟨by simp only [Stmt.readsOpt]; exact h.1, by simp only [Stmt.defsOpt]; exact h.2⟩
theorem analyseOpt_alike : ∀ (o : Option (Stmt P)) (c : Ctx), c.Above p m → Stmt.onlyNamesOpt src p o → Stmt.tailsOpt Stmt.unslotted o →
    Alike xb p m (LateOpt m) (analyseOpt src o c) (analyseOpt src' o (c.under xb))
  | .none, c, hc, _, _ => by
    simp only [analyseOpt]
    exact .pure hc ⟨by simp only [Stmt.readsOpt], by simp [Stmt.defsOpt]⟩
  | some s, c, hc, w, t => by
    simp only [analyseOpt]
    simp only [Stmt.onlyNamesOpt] at w
    simp only [Stmt.tailsOpt] at t
    exact (analyse_alike s c hc w t).bind (fun s' c1 k1 h =>
      .pure k1 ⟨by simp only [Stmt.readsOpt]; exact h.1, by simp only [Stmt.defsOpt]; exact h.2⟩)
theorem analyseFirst_alike : ∀ (ss : List (Stmt P)) (c : Ctx), c.Above p m → Stmt.onlyNamesAll src p ss → Stmt.tailsFirst Stmt.unslotted ss →
    Alike xb p m (LateAll m) (analyseFirst src ss c) (analyseFirst src' ss (c.under xb))
  | [], c, hc, _, _ => by
    simp only [analyseFirst]
    exact .pure hc ⟨by simp only [Stmt.readsAll], by simp [Stmt.defsAll]⟩
  | s :: ss, c, hc, w, t => by
    simp only [analyseFirst]
    simp only [Stmt.onlyNamesAll] at w
    simp only [Stmt.tailsFirst] at t
    refine (analyse_alike s c hc w.1 t.1).bind (fun s' c1 k1 h => .pure k1 ?_)
    have h' := late_unslotted (m := m) t.2
    exact ⟨by simp only [Stmt.readsAll]; exact ⟨h.1, h'.1⟩, by simp only [Stmt.defsAll]; exact late_defs h.2 h'.2⟩
end

end

end
end
end Verif
