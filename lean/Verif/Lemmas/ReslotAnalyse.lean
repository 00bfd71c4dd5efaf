import Verif.Spec.Reslot
import Verif.Lemmas.Mentions

/-! Analysis in two contexts in which the symbols of the script have different slots. -/

set_option linter.unusedSectionVars false

namespace Verif
open Py Spec

section
variable {P I α β γ δ : Type}

/-- The slot with another identity. -/
def SlotInfo.reslot (f : Slot → Slot) (s : SlotInfo) : SlotInfo := { s with id := f s.id }

def reslotBinds (f : Slot → Slot) (l : List (Str × SlotInfo)) : List (Str × SlotInfo) := l.map (fun x => (x.1, x.2.reslot f))

/-- A map that does not change slots below `m`. -/
def Holds (m : Slot) (h : Slot → Slot) : Prop := ∀ n, n < m → h n = n

theorem Holds.le {m m' : Slot} {h : Slot → Slot} (k : Holds m' h) (hm : m ≤ m') : Holds m h := fun n hn => k n (Nat.lt_of_lt_of_le hn hm)

/-- The same error, or results that correspond by `φ`. -/
def Mapped (φ : α → β) (Q : α → Prop) (r : Except (AErr I) α) (r' : Except (AErr I) β) : Prop :=
  (∃ e, r = .error e ∧ r' = .error e) ∨ ∃ a, r = .ok a ∧ r' = .ok (φ a) ∧ Q a

theorem Mapped.pure {φ : α → β} {Q : α → Prop} {a : α} {b : β} (h : b = φ a) (hq : Q a) :
    Mapped φ Q (Pure.pure a : Except (AErr I) α) (Pure.pure b) := .inr ⟨a, rfl, by rw [h]; rfl, hq⟩

theorem Mapped.bind {φ : α → β} {ψ : γ → δ} {Q : α → Prop} {R : γ → Prop} {r : Except (AErr I) α} {r' : Except (AErr I) β}
    {k : α → Except (AErr I) γ} {k' : β → Except (AErr I) δ} (h : Mapped φ Q r r') (hk : ∀ a, Q a → Mapped ψ R (k a) (k' (φ a))) :
    Mapped ψ R (r >>= k) (r' >>= k') := by
  rcases h with ⟨e, rfl, rfl⟩ | ⟨a, rfl, rfl, hq⟩
  · exact .inl ⟨e, rfl, rfl⟩
  · exact hk a hq

theorem lookupBind_reslot (f : Slot → Slot) (b : List (Str × SlotInfo)) (y : Str) :
    lookupBind (reslotBinds f b) y = (lookupBind b y).map (SlotInfo.reslot f) := by
  induction b with
  | nil => rfl
  | cons a b ih =>
    obtain ⟨k, v⟩ := a
    simp only [reslotBinds, List.map_cons, lookupBind] at ih ⊢
    rw [ih]
    cases lookupBind b y with
    | some w => rfl
    | none => simp only [Option.map_none]; split <;> rfl

/-! ### Expressions -/

section
variable {f : Slot → Slot} {p : Str → Prop} {m : Slot} {b b' : List (Str × SlotInfo)}
  (hb : ∀ y, p y → lookupBind b' y = (lookupBind b y).map (SlotInfo.reslot f)) (hm : ∀ x ∈ b, x.2.id < m)
include hb hm

theorem resolve_maps {y : Str} (h : p y) (e : AErr I) :
    Mapped (Option.map f) (fun o => ∀ h, Holds m h → o.map h = o) (resolve b y e) (resolve b' y e) := by
  unfold resolve
  rw [hb y h]
  cases hl : lookupBind b y with
  | none => exact .inl ⟨_, rfl, rfl⟩
  | some s => exact .inr ⟨_, rfl, rfl, fun h hh => by simp only [Option.map_some]; rw [hh _ (hm _ (lookupBind_mem hl))]⟩

mutual
theorem analyseExpr_maps : ∀ e : Expr, e.uses p →
    Mapped (Expr.reslot f) (fun e => ∀ h, Holds m h → e.reslot h = e) (analyseExpr b e : Except (AErr I) _) (analyseExpr b' e)
  | .root _ e => by
    simp only [Expr.uses, analyseExpr]; intro w
    exact (analyseExpr_maps e w).bind (fun a h => .pure (by simp only [Expr.reslot]) (fun g k => by simp only [Expr.reslot]; rw [h g k]))
  | .tagUse _ _ => by
    simp only [Expr.uses, analyseExpr]; intro w
    exact (resolve_maps hb hm w _).bind (fun a h => .pure (by simp only [Expr.reslot]) (fun g k => by simp only [Expr.reslot]; rw [h g k]))
  | .varUse _ _ => by
    simp only [Expr.uses, analyseExpr]; intro w
    exact (resolve_maps hb hm w _).bind (fun a h => .pure (by simp only [Expr.reslot]) (fun g k => by simp only [Expr.reslot]; rw [h g k]))
  | .factor a ts _ => by
    simp only [Expr.uses, analyseExpr]; intro w
    exact (analyseExpr_maps a w.1).bind (fun a h => (analyseTails_maps ts w.2).bind (fun a' h' =>
      .pure (by simp only [Expr.reslot]) (fun g k => by simp only [Expr.reslot]; rw [h g k, h' g k])))
  | .chain _ a _ es => by
    simp only [Expr.uses, analyseExpr]; intro w
    exact (analyseExpr_maps a w.1).bind (fun a h => (analyseExprs_maps es w.2).bind (fun a' h' =>
      .pure (by simp only [Expr.reslot]) (fun g k => by simp only [Expr.reslot]; rw [h g k, h' g k])))
  | .concat es => by
    simp only [Expr.uses, analyseExpr]; intro w
    exact (analyseExprs_maps es w).bind (fun a h => .pure (by simp only [Expr.reslot]) (fun g k => by simp only [Expr.reslot]; rw [h g k]))
  | .bits _ a es => by
    simp only [Expr.uses, analyseExpr]; intro w
    exact (analyseExpr_maps a w.1).bind (fun a h => (analyseExprs_maps es w.2).bind (fun a' h' =>
      .pure (by simp only [Expr.reslot]) (fun g k => by simp only [Expr.reslot]; rw [h g k, h' g k])))
  | .pipeline a es => by
    simp only [Expr.uses, analyseExpr]; intro w
    exact (analyseExpr_maps a w.1).bind (fun a h => (analyseExprs_maps es w.2).bind (fun a' h' =>
      .pure (by simp only [Expr.reslot]) (fun g k => by simp only [Expr.reslot]; rw [h g k, h' g k])))
  | .notTest _ e => by
    simp only [Expr.uses, analyseExpr]; intro w
    exact (analyseExpr_maps e w).bind (fun a h => .pure (by simp only [Expr.reslot]) (fun g k => by simp only [Expr.reslot]; rw [h g k]))
  | .andTest a es => by
    simp only [Expr.uses, analyseExpr]; intro w
    exact (analyseExpr_maps a w.1).bind (fun a h => (analyseExprs_maps es w.2).bind (fun a' h' =>
      .pure (by simp only [Expr.reslot]) (fun g k => by simp only [Expr.reslot]; rw [h g k, h' g k])))
  | .orTest a es => by
    simp only [Expr.uses, analyseExpr]; intro w
    exact (analyseExpr_maps a w.1).bind (fun a h => (analyseExprs_maps es w.2).bind (fun a' h' =>
      .pure (by simp only [Expr.reslot]) (fun g k => by simp only [Expr.reslot]; rw [h g k, h' g k])))
  | .ifElse x t y => by
    simp only [Expr.uses, analyseExpr]; intro w
    exact (analyseExpr_maps x w.1).bind (fun a h => (analyseExpr_maps t w.2.1).bind (fun a' h' => (analyseExprOpt_maps y w.2.2).bind (fun a'' h'' =>
      .pure (by simp only [Expr.reslot]) (fun g k => by simp only [Expr.reslot]; rw [h g k, h' g k, h'' g k]))))
  | .list es => by
    simp only [Expr.uses, analyseExpr]; intro w
    exact (analyseExprs_maps es w).bind (fun a h => .pure (by simp only [Expr.reslot]) (fun g k => by simp only [Expr.reslot]; rw [h g k]))
  | .tuple es => by
    simp only [Expr.uses, analyseExpr]; intro w
    exact (analyseExprs_maps es w).bind (fun a h => .pure (by simp only [Expr.reslot]) (fun g k => by simp only [Expr.reslot]; rw [h g k]))
  | .set es => by
    simp only [Expr.uses, analyseExpr]; intro w
    exact (analyseExprs_maps es w).bind (fun a h => .pure (by simp only [Expr.reslot]) (fun g k => by simp only [Expr.reslot]; rw [h g k]))
  | .dict es => by
    simp only [Expr.uses, analyseExpr]; intro w
    exact (analyseExprs_maps es w).bind (fun a h => .pure (by simp only [Expr.reslot]) (fun g k => by simp only [Expr.reslot]; rw [h g k]))
  | .format es => by
    simp only [Expr.uses, analyseExpr]; intro w
    exact (analyseExprs_maps es w).bind (fun a h => .pure (by simp only [Expr.reslot]) (fun g k => by simp only [Expr.reslot]; rw [h g k]))
  | .static _ => by simp only [analyseExpr]; exact fun _ => .pure (by simp only [Expr.reslot]) (fun g k => by simp only [Expr.reslot])
  | .strLit _ => by simp only [analyseExpr]; exact fun _ => .pure (by simp only [Expr.reslot]) (fun g k => by simp only [Expr.reslot])
  | .number _ => by simp only [analyseExpr]; exact fun _ => .pure (by simp only [Expr.reslot]) (fun g k => by simp only [Expr.reslot])
  | .boolean _ => by simp only [analyseExpr]; exact fun _ => .pure (by simp only [Expr.reslot]) (fun g k => by simp only [Expr.reslot])
  | .noneLit => by simp only [analyseExpr]; exact fun _ => .pure (by simp only [Expr.reslot]) (fun g k => by simp only [Expr.reslot])
  | .sliceNone => by simp only [analyseExpr]; exact fun _ => .pure (by simp only [Expr.reslot]) (fun g k => by simp only [Expr.reslot])
theorem analyseExprs_maps : ∀ es : List Expr, Expr.usesAll p es →
    Mapped (Expr.reslotAll f) (fun e => ∀ h, Holds m h → Expr.reslotAll h e = e) (analyseExprs b es : Except (AErr I) _) (analyseExprs b' es)
  | [] => by simp only [analyseExprs]; exact fun _ => .pure (by simp only [Expr.reslotAll]) (fun g k => by simp only [Expr.reslotAll])
  | e :: es => by
    simp only [Expr.usesAll, analyseExprs]; intro w
    exact (analyseExpr_maps e w.1).bind (fun a h => (analyseExprs_maps es w.2).bind (fun a' h' =>
      .pure (by simp only [Expr.reslotAll]) (fun g k => by simp only [Expr.reslotAll]; rw [h g k, h' g k])))
theorem analyseExprOpt_maps : ∀ o : Option Expr, Expr.usesOpt p o →
    Mapped (Expr.reslotOpt f) (fun e => ∀ h, Holds m h → Expr.reslotOpt h e = e) (analyseExprOpt b o : Except (AErr I) _) (analyseExprOpt b' o)
  | .none => by simp only [analyseExprOpt]; exact fun _ => .pure (by simp only [Expr.reslotOpt]) (fun g k => by simp only [Expr.reslotOpt])
  | some e => by
    simp only [Expr.usesOpt, analyseExprOpt]; intro w
    exact (analyseExpr_maps e w).bind (fun a h => .pure (by simp only [Expr.reslotOpt]) (fun g k => by simp only [Expr.reslotOpt]; rw [h g k]))
theorem analyseTails_maps : ∀ ts : List Tail, Tail.usesAll p ts →
    Mapped (Tail.reslotAll f) (fun e => ∀ h, Holds m h → Tail.reslotAll h e = e) (analyseTails b ts : Except (AErr I) _) (analyseTails b' ts)
  | [] => by simp only [analyseTails]; exact fun _ => .pure (by simp only [Tail.reslotAll]) (fun g k => by simp only [Tail.reslotAll])
  | t :: ts => by
    simp only [Tail.usesAll, analyseTails]; intro w
    exact (analyseTail_maps t w.1).bind (fun a h => (analyseTails_maps ts w.2).bind (fun a' h' =>
      .pure (by simp only [Tail.reslotAll]) (fun g k => by simp only [Tail.reslotAll]; rw [h g k, h' g k])))
theorem analyseTail_maps : ∀ t : Tail, t.uses p →
    Mapped (Tail.reslot f) (fun e => ∀ h, Holds m h → e.reslot h = e) (analyseTail b t : Except (AErr I) _) (analyseTail b' t)
  | .call _ es => by
    simp only [Tail.uses, analyseTail]; intro w
    exact (analyseExprs_maps es w).bind (fun a h => .pure (by simp only [Tail.reslot]) (fun g k => by simp only [Tail.reslot]; rw [h g k]))
  | .partialCall _ es => by
    simp only [Tail.uses, analyseTail]; intro w
    exact (analyseExprs_maps es w).bind (fun a h => .pure (by simp only [Tail.reslot]) (fun g k => by simp only [Tail.reslot]; rw [h g k]))
  | .index es => by
    simp only [Tail.uses, analyseTail]; intro w
    exact (analyseExprs_maps es w).bind (fun a h => .pure (by simp only [Tail.reslot]) (fun g k => by simp only [Tail.reslot]; rw [h g k]))
  | .member _ => by simp only [analyseTail]; exact fun _ => .pure (by simp only [Tail.reslot]) (fun g k => by simp only [Tail.reslot])
end

theorem analyseLine_maps (l : Line) (w : l.uses p) :
    Mapped (Line.reslot f) (fun e => ∀ h, Holds m h → e.reslot h = e) (analyseLine b l : Except (AErr I) _) (analyseLine b' l) := by
  cases l with
  | verbat s => exact .pure rfl (fun _ _ => rfl)
  | normal ps => exact (analyseExprs_maps hb hm ps w).bind (fun a h => .pure rfl (fun g k => by simp only [Line.reslot]; rw [h g k]))
  | markup ps => exact (analyseExprs_maps hb hm ps w).bind (fun a h => .pure rfl (fun g k => by simp only [Line.reslot]; rw [h g k]))

theorem analyseItem_maps (i : TextItem) (w : i.uses p) :
    Mapped (TextItem.reslot f) (fun e => ∀ h, Holds m h → e.reslot h = e) (analyseItem b i : Except (AErr I) _) (analyseItem b' i) := by
  cases i with
  | line l => exact (analyseLine_maps hb hm l w).bind (fun a h => .pure rfl (fun g k => by simp only [TextItem.reslot]; rw [h g k]))
  | _ => exact .pure rfl (fun _ _ => rfl)

theorem analyseItems_maps (is : List TextItem) (w : ∀ i ∈ is, i.uses p) :
    Mapped (List.map (TextItem.reslot f)) (fun l => ∀ h, Holds m h → l.map (TextItem.reslot h) = l)
      (analyseItems b is : Except (AErr I) _) (analyseItems b' is) := by
  induction is with
  | nil => exact .pure rfl (fun _ _ => rfl)
  | cons i is ih =>
    simp only [analyseItems]
    exact (analyseItem_maps hb hm i (w i (by simp))).bind (fun a h => (ih (fun j hj => w j (by simp [hj]))).bind (fun l h' =>
      .pure rfl (fun g k => by rw [List.map_cons, h g k, h' g k])))

theorem analyseNamed_maps (ns : List (Str × Expr)) (w : ∀ n ∈ ns, n.2.uses p) :
    Mapped (List.map (fun n : Str × Expr => (n.1, n.2.reslot f))) (fun l => ∀ h, Holds m h → l.map (fun n : Str × Expr => (n.1, n.2.reslot h)) = l)
      (analyseNamed b ns : Except (AErr I) _) (analyseNamed b' ns) := by
  induction ns with
  | nil => exact .pure rfl (fun _ _ => rfl)
  | cons n ns ih =>
    obtain ⟨n, e⟩ := n
    simp only [analyseNamed]
    exact (analyseExpr_maps hb hm e (w (n, e) (by simp))).bind (fun a h => (ih (fun j hj => w j (by simp [hj]))).bind (fun l h' =>
      .pure rfl (fun g k => by rw [List.map_cons, h g k, h' g k])))

theorem analyseTag_maps (t : TagExp) (w : t.uses p) :
    Mapped (TagExp.reslot f) (fun e => ∀ h, Holds m h → e.reslot h = e) (analyseTag b t : Except (AErr I) _) (analyseTag b' t) := by
  cases t with
  | null => exact .pure rfl (fun _ _ => rfl)
  | tag name s us ns =>
    obtain ⟨w1, w2, w3⟩ := w
    simp only [analyseTag]
    exact (analyseExprs_maps hb hm us w1).bind (fun a h => (analyseNamed_maps hb hm ns w2).bind (fun l h' =>
      (resolve_maps hb hm w3 _).bind (fun r hr => .pure rfl (fun g k => by simp only [TagExp.reslot]; rw [h g k, h' g k, hr g k]))))

theorem analyseTags_maps (ts : List TagExp) (w : ∀ t ∈ ts, t.uses p) :
    Mapped (List.map (TagExp.reslot f)) (fun l => ∀ h, Holds m h → l.map (TagExp.reslot h) = l)
      (analyseTags b ts : Except (AErr I) _) (analyseTags b' ts) := by
  induction ts with
  | nil => exact .pure rfl (fun _ _ => rfl)
  | cons i is ih =>
    simp only [analyseTags]
    exact (analyseTag_maps hb hm i (w i (by simp))).bind (fun a h => (ih (fun j hj => w j (by simp [hj]))).bind (fun l h' =>
      .pure rfl (fun g k => by rw [List.map_cons, h g k, h' g k])))

/-- Default values of parameters; their slots are given later. -/
theorem analyseDefaults_maps (as : List AttrDef) (w : ∀ a ∈ as, a.onlyNames p) :
    Mapped (List.map (fun a : AttrDef => { a with default := Expr.reslotOpt f a.default }))
      (fun l => (∀ a ∈ l, p ('$' :: a.name)) ∧ ∀ h, Holds m h → ∀ a ∈ l, Expr.reslotOpt h a.default = a.default)
      (analyseDefaults b as : Except (AErr I) _) (analyseDefaults b' as) := by
  induction as with
  | nil => exact .pure rfl ⟨by simp, by simp⟩
  | cons a as ih =>
    have wa := w a (by simp)
    simp only [analyseDefaults]
    refine (analyseExprOpt_maps hb hm a.default wa.2).bind (fun e h => (ih (fun j hj => w j (by simp [hj]))).bind (fun l h' =>
      .pure rfl ⟨?_, fun g k j hj => ?_⟩))
    · intro j hj
      rcases List.mem_cons.1 hj with rfl | hj
      · exact wa.1
      · exact h'.1 j hj
    · rcases List.mem_cons.1 hj with rfl | hj
      · exact h g k
      · exact h'.2 g k j hj

end

end
end Verif
