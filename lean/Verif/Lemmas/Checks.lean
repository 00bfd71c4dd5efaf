import Verif.Spec.Checks
import Verif.Lemmas.Ctx

/-! The analysis carries out the checks of `Spec/Checks.lean`, in their order. -/

set_option linter.unusedSectionVars false

namespace Verif
open Py Spec

section
variable {P I α β : Type}

theorem firstFailed_append (l m : List (Option (AErr I))) :
    firstFailed (l ++ m) = (firstFailed l).or (firstFailed m) := by
  induction l with
  | nil => simp [firstFailed]
  | cons a l ih => cases a <;> simp [firstFailed, ih]

theorem firstFailed_none (l : List (Option (AErr I))) : firstFailed l = none ↔ ∀ x ∈ l, x = none := by
  induction l with
  | nil => simp [firstFailed]
  | cons a l ih => cases a <;> simp [firstFailed, ih]

/-- If analysis succeeds then no check failed and the result satisfies `Q`; its exception is the one of
the first failed check. -/
def Verdict (l : List (Option (AErr I))) (Q : α → Prop) (r : Except (AErr I) α) : Prop :=
  (∀ a, r = .ok a → firstFailed l = none ∧ Q a) ∧ (∀ e, r = .error e → firstFailed l = some e)

theorem Verdict.pure {Q : α → Prop} {a : α} (h : Q a) :
    Verdict [] Q (Pure.pure a : Except (AErr I) α) :=
  ⟨fun b hb => by cases hb; exact ⟨rfl, h⟩, fun e he => by cases he⟩

theorem Verdict.bind {l m : List (Option (AErr I))} {Q : α → Prop} {R : β → Prop}
    {c : Except (AErr I) α} {f : α → Except (AErr I) β} (hc : Verdict l Q c)
    (hf : ∀ a, Q a → firstFailed l = none → Verdict m R (f a)) : Verdict (l ++ m) R (c >>= f) := by
  cases c with
  | error e =>
    refine ⟨fun b hb => (by cases hb), fun e' he => ?_⟩
    have he : (Except.error e : Except (AErr I) β) = .error e' := he
    cases he
    rw [firstFailed_append, hc.2 e rfl]; rfl
  | ok a =>
    obtain ⟨h1, hQ⟩ := hc.1 a rfl
    refine ⟨fun b hb => ?_, fun e he => ?_⟩
    · obtain ⟨h2, hR⟩ := (hf a hQ h1).1 b hb
      exact ⟨by rw [firstFailed_append, h1, h2]; rfl, hR⟩
    · rw [firstFailed_append, h1, (hf a hQ h1).2 e he]; rfl

/-- The last step has no checks. -/
theorem Verdict.map {l : List (Option (AErr I))} {Q : α → Prop} {R : β → Prop}
    {c : Except (AErr I) α} {f : α → Except (AErr I) β} (hc : Verdict l Q c)
    (hf : ∀ a, Q a → firstFailed l = none → Verdict [] R (f a)) : Verdict l R (c >>= f) := by
  have := hc.bind hf
  rwa [List.append_nil] at this

theorem Verdict.imp {l : List (Option (AErr I))} {Q R : α → Prop} {c : Except (AErr I) α}
    (h : Verdict l Q c) (hp : ∀ a, Q a → R a) : Verdict l R c :=
  ⟨fun a ha => ⟨(h.1 a ha).1, hp a (h.1 a ha).2⟩, h.2⟩

theorem Verdict.eq {l m : List (Option (AErr I))} {Q : α → Prop} {c : Except (AErr I) α} (e : l = m)
    (h : Verdict l Q c) : Verdict m Q c := e ▸ h

/-- A check at the beginning. -/
theorem Verdict.guard {l : List (Option (AErr I))} {Q : α → Prop} {p : Prop} [Decidable p]
    {b : Bool} {c : Except (AErr I) α} (hb : b = decide (¬ p)) (hc : ¬ p → Verdict l Q c) :
    Verdict ([placeCheck b] ++ l) Q (if p then .error .syntaxErr else c) := by
  by_cases h : p
  · rw [if_pos h, hb]
    refine ⟨fun a ha => (by cases ha), fun e he => ?_⟩
    cases he
    simp [placeCheck, h, firstFailed]
  · rw [if_neg h, hb]
    simpa [Verdict, placeCheck, h, firstFailed] using hc h

/-! ### Names -/

/-- The symbols in scope, which are proper ones. -/
structure Scoped (S : List Str) (b : List (Str × SlotInfo)) : Prop where
  same : SameNames S b
  proper : ∀ x ∈ S, IsSymbol x = true

section
variable {S : List Str} {b : List (Str × SlotInfo)} (hS : SameNames S b)
include hS

theorem resolve_verdict (sym : Str) (e : AErr I) :
    Verdict [if sym ∈ S then none else some e] (fun _ => True)
      (resolve b sym e : Except (AErr I) (Option Slot)) := by
  unfold resolve
  have h := lookupBind_isSome b sym
  cases hl : lookupBind b sym with
  | some s =>
    rw [hl] at h
    have : sym ∈ S := (hS sym).2 (h.1 rfl)
    refine ⟨fun _ _ => ⟨by simp [this, firstFailed], trivial⟩, fun e he => by cases he⟩
  | none =>
    rw [hl] at h
    have : sym ∉ S := fun hm => by have := h.2 ((hS sym).1 hm); simp at this
    refine ⟨fun _ ha => (by cases ha), fun e he => ?_⟩
    cases he
    simp [this, firstFailed]

omit hS in
theorem usesOf_append (us vs : List Use) :
    (usesOf S (us ++ vs) : List (Option (AErr I))) = usesOf S us ++ usesOf S vs := by
  simp [usesOf]

mutual
theorem analyseExpr_verdict : ∀ e : Expr, Verdict (usesOf S (names e)) (fun _ => True)
    (analyseExpr b e : Except (AErr I) Expr)
  | .root _ e => by
    simp only [analyseExpr, names]
    exact (analyseExpr_verdict e).map (fun _ _ _ => .pure trivial)
  | .tagUse sym _ => by
    simp only [analyseExpr, names, usesOf, List.map_cons, List.map_nil, inScope]
    exact (resolve_verdict hS _ _).map (fun _ _ _ => .pure trivial)
  | .varUse name _ => by
    simp only [analyseExpr, names, usesOf, List.map_cons, List.map_nil, inScope]
    exact (resolve_verdict hS _ _).map (fun _ _ _ => .pure trivial)
  | .factor a t _ => by
    simp only [analyseExpr, names, usesOf_append]
    exact (analyseExpr_verdict a).bind (fun _ _ _ => (analyseTails_verdict t).map
      (fun _ _ _ => .pure trivial))
  | .chain _ a _ es => by
    simp only [analyseExpr, names, usesOf_append]
    exact (analyseExpr_verdict a).bind (fun _ _ _ => (analyseExprs_verdict es).map
      (fun _ _ _ => .pure trivial))
  | .concat es => by
    simp only [analyseExpr, names]
    exact (analyseExprs_verdict es).map (fun _ _ _ => .pure trivial)
  | .bits _ a es => by
    simp only [analyseExpr, names, usesOf_append]
    exact (analyseExpr_verdict a).bind (fun _ _ _ => (analyseExprs_verdict es).map
      (fun _ _ _ => .pure trivial))
  | .pipeline a es => by
    simp only [analyseExpr, names, usesOf_append]
    exact (analyseExpr_verdict a).bind (fun _ _ _ => (analyseExprs_verdict es).map
      (fun _ _ _ => .pure trivial))
  | .notTest _ e => by
    simp only [analyseExpr, names]
    exact (analyseExpr_verdict e).map (fun _ _ _ => .pure trivial)
  | .andTest a es => by
    simp only [analyseExpr, names, usesOf_append]
    exact (analyseExpr_verdict a).bind (fun _ _ _ => (analyseExprs_verdict es).map
      (fun _ _ _ => .pure trivial))
  | .orTest a es => by
    simp only [analyseExpr, names, usesOf_append]
    exact (analyseExpr_verdict a).bind (fun _ _ _ => (analyseExprs_verdict es).map
      (fun _ _ _ => .pure trivial))
  | .ifElse x t y => by
    simp only [analyseExpr, names, usesOf_append, List.append_assoc]
    exact (analyseExpr_verdict x).bind (fun _ _ _ => (analyseExpr_verdict t).bind (fun _ _ _ =>
      (analyseExprOpt_verdict y).map (fun _ _ _ => .pure trivial)))
  | .list es => by
    simp only [analyseExpr, names]
    exact (analyseExprs_verdict es).map (fun _ _ _ => .pure trivial)
  | .tuple es => by
    simp only [analyseExpr, names]
    exact (analyseExprs_verdict es).map (fun _ _ _ => .pure trivial)
  | .set es => by
    simp only [analyseExpr, names]
    exact (analyseExprs_verdict es).map (fun _ _ _ => .pure trivial)
  | .dict es => by
    simp only [analyseExpr, names]
    exact (analyseExprs_verdict es).map (fun _ _ _ => .pure trivial)
  | .format es => by
    simp only [analyseExpr, names]
    exact (analyseExprs_verdict es).map (fun _ _ _ => .pure trivial)
  | .static _ => by simp only [analyseExpr, names]; exact .pure trivial
  | .strLit _ => by simp only [analyseExpr, names]; exact .pure trivial
  | .number _ => by simp only [analyseExpr, names]; exact .pure trivial
  | .boolean _ => by simp only [analyseExpr, names]; exact .pure trivial
  | .noneLit => by simp only [analyseExpr, names]; exact .pure trivial
  | .sliceNone => by simp only [analyseExpr, names]; exact .pure trivial
theorem analyseExprs_verdict : ∀ es : List Expr, Verdict (usesOf S (namesAll es)) (fun _ => True)
    (analyseExprs b es : Except (AErr I) (List Expr))
  | [] => by simp only [analyseExprs, namesAll]; exact .pure trivial
  | e :: es => by
    simp only [analyseExprs, namesAll, usesOf_append]
    exact (analyseExpr_verdict e).bind (fun _ _ _ => (analyseExprs_verdict es).map
      (fun _ _ _ => .pure trivial))
theorem analyseExprOpt_verdict : ∀ o : Option Expr, Verdict (usesOf S (namesOpt o)) (fun _ => True)
    (analyseExprOpt b o : Except (AErr I) (Option Expr))
  | none => by simp only [analyseExprOpt, namesOpt]; exact .pure trivial
  | some e => by
    simp only [analyseExprOpt, namesOpt]
    exact (analyseExpr_verdict e).map (fun _ _ _ => .pure trivial)
theorem analyseTails_verdict : ∀ ts : List Tail, Verdict (usesOf S (namesTails ts)) (fun _ => True)
    (analyseTails b ts : Except (AErr I) (List Tail))
  | [] => by simp only [analyseTails, namesTails]; exact .pure trivial
  | t :: ts => by
    simp only [analyseTails, namesTails, usesOf_append]
    exact (analyseTail_verdict t).bind (fun _ _ _ => (analyseTails_verdict ts).map
      (fun _ _ _ => .pure trivial))
theorem analyseTail_verdict : ∀ t : Tail, Verdict (usesOf S (namesTail t)) (fun _ => True)
    (analyseTail b t : Except (AErr I) Tail)
  | .call _ es => by
    simp only [analyseTail, namesTail]
    exact (analyseExprs_verdict es).map (fun _ _ _ => .pure trivial)
  | .partialCall _ es => by
    simp only [analyseTail, namesTail]
    exact (analyseExprs_verdict es).map (fun _ _ _ => .pure trivial)
  | .index es => by
    simp only [analyseTail, namesTail]
    exact (analyseExprs_verdict es).map (fun _ _ _ => .pure trivial)
  | .member _ => by simp only [analyseTail, namesTail]; exact .pure trivial
end

theorem analyseLine_verdict (l : Line) : Verdict (usesOf S (namesLine l)) (fun _ => True)
    (analyseLine b l : Except (AErr I) Line) := by
  cases l with
  | verbat s => exact .pure trivial
  | normal ps => exact (analyseExprs_verdict hS ps).map (fun _ _ _ => .pure trivial)
  | markup ps => exact (analyseExprs_verdict hS ps).map (fun _ _ _ => .pure trivial)

theorem analyseItem_verdict (i : TextItem) : Verdict (usesOf S (namesItem i)) (fun _ => True)
    (analyseItem b i : Except (AErr I) TextItem) := by
  cases i with
  | line l => exact (analyseLine_verdict hS l).map (fun _ _ _ => .pure trivial)
  | _ => exact .pure trivial

theorem analyseItems_verdict (is : List TextItem) :
    Verdict (usesOf S (is.flatMap namesItem)) (fun _ => True)
      (analyseItems b is : Except (AErr I) (List TextItem)) := by
  induction is with
  | nil => exact .pure trivial
  | cons i is ih =>
    simp only [analyseItems, List.flatMap_cons, usesOf_append]
    exact (analyseItem_verdict hS i).bind (fun _ _ _ => ih.map (fun _ _ _ => .pure trivial))

theorem analyseNamed_verdict (l : List (Str × Expr)) :
    Verdict (usesOf S (l.flatMap (fun n => names n.2))) (fun _ => True)
      (analyseNamed b l : Except (AErr I) (List (Str × Expr))) := by
  induction l with
  | nil => exact .pure trivial
  | cons i is ih =>
    simp only [analyseNamed, List.flatMap_cons, usesOf_append]
    exact (analyseExpr_verdict hS i.2).bind (fun _ _ _ => ih.map (fun _ _ _ => .pure trivial))

theorem analyseTag_verdict (t : TagExp) : Verdict (usesOf S (namesTag t)) (fun _ => True)
    (analyseTag b t : Except (AErr I) TagExp) := by
  cases t with
  | null => exact .pure trivial
  | tag name sl us ns =>
    simp only [analyseTag, namesTag, usesOf_append, List.append_assoc]
    exact (analyseExprs_verdict hS us).bind (fun _ _ _ => (analyseNamed_verdict hS ns).bind
      (fun _ _ _ => (resolve_verdict hS _ _).map (fun _ _ _ => .pure trivial)))

theorem analyseTags_verdict (ts : List TagExp) :
    Verdict (usesOf S (ts.flatMap namesTag)) (fun _ => True)
      (analyseTags b ts : Except (AErr I) (List TagExp)) := by
  induction ts with
  | nil => exact .pure trivial
  | cons i is ih =>
    simp only [analyseTags, List.flatMap_cons, usesOf_append]
    exact (analyseTag_verdict hS i).bind (fun _ _ _ => ih.map (fun _ _ _ => .pure trivial))

theorem analyseDefaults_verdict (as : List AttrDef) :
    Verdict (usesOf S (as.flatMap (fun a => namesOpt a.default)))
      (fun r => r.map (fun a => '$' :: a.name) = as.map (fun a => '$' :: a.name))
      (analyseDefaults b as : Except (AErr I) (List AttrDef)) := by
  induction as with
  | nil => exact .pure rfl
  | cons i is ih =>
    simp only [analyseDefaults, List.flatMap_cons, usesOf_append]
    refine (analyseExprOpt_verdict hS i.default).bind (fun _ _ _ => ih.map (fun _ h _ => .pure ?_))
    simp only [List.map_cons, h]

end

/-! ### Contexts -/

/-- The context `c'` extends `c` by the symbols of `A`; `pro` tells if it may still be in the
prolog. -/
structure Brings (c c' : Ctx) (A : List Str) (pro : Bool) : Prop where
  binds : ∃ new, c'.binds = c.binds ++ new
  adds : Adds c c' A
  control : c'.control = c.control
  prolog : c'.prolog = (c.prolog && pro)
  proper : ∀ x ∈ A, IsSymbol x = true

theorem Brings.refl (c : Ctx) : Brings c c [] true :=
  ⟨⟨[], by simp⟩, Adds.nil c, rfl, by simp, by simp⟩

theorem Brings.trans {c1 c2 c3 : Ctx} {A B : List Str} {p q : Bool} (h1 : Brings c1 c2 A p)
    (h2 : Brings c2 c3 B q) : Brings c1 c3 (A ++ B) (p && q) := by
  obtain ⟨n1, e1⟩ := h1.binds
  obtain ⟨n2, e2⟩ := h2.binds
  refine ⟨⟨n1 ++ n2, by rw [e2, e1, List.append_assoc]⟩, h1.adds.trans h2.adds,
    h2.control.trans h1.control, by rw [h2.prolog, h1.prolog, Bool.and_assoc], ?_⟩
  intro x hx
  rcases List.mem_append.1 hx with h | h
  · exact h1.proper x h
  · exact h2.proper x h

theorem Brings.scoped {c c' : Ctx} {A S : List Str} {p : Bool} (h : Brings c c' A p)
    (hS : Scoped S c.binds) : Scoped (S ++ A) c'.binds := by
  refine ⟨h.adds.same hS.same, fun x hx => ?_⟩
  rcases List.mem_append.1 hx with hx | hx
  · exact hS.proper x hx
  · exact h.proper x hx

theorem Brings.take {c c' : Ctx} {A : List Str} {p : Bool} (h : Brings c c' A p) :
    c'.binds.take c.binds.length = c.binds := by
  obtain ⟨new, e⟩ := h.binds
  rw [e]; simp

theorem validSymbol_eq (sym : Str) : validSymbol sym = IsSymbol sym := by
  match sym with
  | [] => rfl
  | [_] => rfl
  | c :: _ :: _ => simp only [validSymbol, IsSymbol]; rfl

theorem newSlot_verdict (c : Ctx) (sym : Str) :
    Verdict [symbolCheck sym] (fun r => Brings c r.2 [sym] true)
      (newSlot c sym : Except (AErr I) (SlotInfo × Ctx)) := by
  unfold newSlot symbolCheck
  rw [validSymbol_eq]
  cases h : IsSymbol sym
  · exact ⟨fun a ha => (by cases ha), fun e he => by cases he; rfl⟩
  · refine ⟨fun a ha => ⟨rfl, ?_⟩, fun e he => by cases he⟩
    cases ha
    refine ⟨⟨[(sym, _)], rfl⟩, fun x => ?_, rfl, by simp [Ctx.push], by simpa using h⟩
    simp [Ctx.push]

theorem declare_verdict (c : Ctx) (sym : Str) :
    Verdict [symbolCheck sym] (fun r => Brings c r.2 [sym] true)
      (declare c sym : Except (AErr I) (SlotInfo × Ctx)) := by
  unfold declare
  refine (newSlot_verdict c sym).map (fun r hr _ => .pure ?_)
  obtain ⟨new, e⟩ := hr.binds
  refine ⟨⟨new ++ [(sym, r.1)], by simp [Ctx.push, e]⟩, fun x => ?_, hr.control, hr.prolog, hr.proper⟩
  have := hr.adds x
  simp only [Ctx.push, List.map_append, List.map_cons, List.map_nil, List.mem_append, this,
    List.mem_cons, List.not_mem_nil, or_false, or_assoc, or_self]

theorem writeSlot_verdict {S : List Str} {c : Ctx} (hS : Scoped S c.binds) (sym : Str) :
    Verdict [symbolCheck sym] (fun r => Brings c r.2 [sym] true)
      (writeSlot c sym : Except (AErr I) (SlotInfo × Ctx)) := by
  unfold writeSlot
  cases h : c.get sym with
  | none => exact declare_verdict c sym
  | some s =>
    show Verdict _ _ (if s.depth = c.regular then .ok (s, c) else declare c sym)
    by_cases hd : s.depth = c.regular
    · rw [if_pos hd]
      have hm : sym ∈ c.binds.map Prod.fst := by
        rw [← lookupBind_isSome]; unfold Ctx.get at h; rw [h]; rfl
      have hp := hS.proper sym ((hS.same sym).2 hm)
      refine ⟨fun a ha => ⟨by simp [symbolCheck, hp, firstFailed], ?_⟩, fun e he => by cases he⟩
      cases ha
      refine ⟨⟨[], by simp⟩, fun x => ?_, rfl, by simp, by simpa using hp⟩
      simp only [List.mem_cons, List.not_mem_nil, or_false]
      constructor
      · exact .inl
      · rintro (h | h)
        · exact h
        · exact h ▸ hm
    · rw [if_neg hd]; exact declare_verdict c sym

mutual
theorem analyseTarget_verdict : ∀ (t : Target) (c : Ctx) (S : List Str), Scoped S c.binds →
    Verdict (targetChecks S t) (fun r => Brings c r.2 t.defines true)
      (analyseTarget t c : Except (AErr I) (Target × Ctx))
  | .var name read _ _, c, S, hS => by
    simp only [analyseTarget, targetChecks, Target.defines]
    have hr : Verdict (if read then [inScope S (.var name)] else []) (fun _ => True)
        (readSlot c read ('$' :: name) : Except (AErr I) (Option Slot)) := by
      cases read
      · exact .pure trivial
      · exact resolve_verdict hS.same _ _
    exact hr.bind (fun _ _ _ => (writeSlot_verdict hS _).map (fun r hr _ => .pure hr))
  | .many ts, c, S, hS => by
    simp only [analyseTarget, targetChecks, Target.defines]
    exact (analyseTargets_verdict ts c S hS).map (fun r hr _ => .pure hr)
theorem analyseTargets_verdict : ∀ (ts : List Target) (c : Ctx) (S : List Str), Scoped S c.binds →
    Verdict (targetsChecks S ts) (fun r => Brings c r.2 (Target.definesAll ts) true)
      (analyseTargets ts c : Except (AErr I) (List Target × Ctx))
  | [], c, S, hS => by
    simp only [analyseTargets, targetsChecks, Target.definesAll]
    exact .pure (Brings.refl c)
  | t :: ts, c, S, hS => by
    simp only [analyseTargets, targetsChecks, Target.definesAll]
    exact (analyseTarget_verdict t c S hS).bind (fun r hr _ =>
      (analyseTargets_verdict ts r.2 _ (hr.scoped hS)).map (fun r' hr' _ => .pure (hr.trans hr')))
end

theorem declareAttrs_verdict (as : List AttrDef) (c : Ctx) :
    Verdict ((as.map (fun a => '$' :: a.name)).map symbolCheck)
      (fun r => Brings c r.2 (as.map (fun a => '$' :: a.name)) true)
      (declareAttrs as c : Except (AErr I) (List AttrDef × Ctx)) := by
  induction as generalizing c with
  | nil => exact .pure (Brings.refl c)
  | cons a as ih =>
    simp only [declareAttrs, List.map_cons]
    exact Verdict.bind (l := [_]) (declare_verdict c _) (fun r hr _ => (ih r.2).map
      (fun r' hr' _ => .pure (hr.trans hr')))

theorem valueSlots_verdict (l : List (Str × Val P)) (c : Ctx) :
    Verdict ((l.map Prod.fst).map symbolCheck) (fun r => Brings c r.2 (l.map Prod.fst) true)
      (valueSlots l c : Except (AErr I) _) := by
  induction l generalizing c with
  | nil => exact .pure (Brings.refl c)
  | cons a as ih =>
    simp only [valueSlots, List.map_cons]
    exact Verdict.bind (l := [_]) (newSlot_verdict c _) (fun r hr _ => (ih r.2).map
      (fun r' hr' _ => .pure (hr.trans hr')))

theorem publicSymbols_verdict (st : StateId) (l : List (Str × Val P)) :
    Verdict ((l.map Prod.fst).map (fun s => if 2 ≤ s.length then none else some .index))
      (fun r => r.map Prod.fst = (l.map Prod.fst).filter (fun s => s[1]? ≠ some '_'))
      (publicSymbols st l : Except (AErr I) _) := by
  induction l with
  | nil => exact .pure rfl
  | cons a as ih =>
    obtain ⟨sym, v⟩ := a
    simp only [publicSymbols, List.map_cons]
    cases h : (sym[1]? : Option Char) with
    | none =>
      have : ¬ 2 ≤ sym.length := by
        intro hl
        rw [List.getElem?_eq_none_iff] at h
        omega
      refine ⟨fun a ha => (by cases ha), fun e he => ?_⟩
      cases he
      simp [this, firstFailed]
    | some ch =>
      have : 2 ≤ sym.length := by
        rcases Nat.lt_or_ge 1 sym.length with h' | h'
        · exact h'
        · rw [List.getElem?_eq_none_iff.2 h'] at h; cases h
      have key : Verdict ((as.map Prod.fst).map (fun s => if 2 ≤ s.length then none else some .index))
          (fun r => r.map Prod.fst =
            (sym :: as.map Prod.fst).filter (fun s => s[1]? ≠ some '_'))
          (do let l ← publicSymbols st as
              return if ch ≠ '_' then (sym, importValue sym st v) :: l else l : Except (AErr I) _) := by
        refine ih.map (fun r hr _ => .pure ?_)
        by_cases hc : ch = '_'
        · simp [h, hc, hr]
        · simp [h, hc, hr]
      simp only [this, if_true]
      refine ⟨fun a ha => ?_, fun e he => ?_⟩
      · exact ⟨by rw [firstFailed]; exact (key.1 a ha).1, (key.1 a ha).2⟩
      · rw [firstFailed]; exact key.2 e he

theorem loadModule_verdict (src : Source P I) (path : Option Str) :
    Verdict [loadCheck src path] (fun m => src.modules path = .ok m)
      (loadModule src path : Except (AErr I) _) := by
  unfold loadModule loadCheck
  cases h : src.modules path with
  | ok m => exact ⟨fun a ha => by cases ha; exact ⟨rfl, rfl⟩, fun e he => by cases he⟩
  | error x => exact ⟨fun a ha => (by cases ha), fun e he => by cases he; rfl⟩

theorem renamed_asName (sym : Str) (ren : Option Str) : renamed sym ren = asName sym ren := by
  cases ren <;> rfl

theorem get?_none {V : Type} (d : Dict Str V) (sym : Str) (h : Dict.get? d sym = none) :
    sym ∉ d.map Prod.fst := (Dict.get?_eq_none_iff d sym).1 h

theorem get?_some {V : Type} (d : Dict Str V) (sym : Str) (v : V) (h : Dict.get? d sym = some v) :
    sym ∈ d.map Prod.fst := (Dict.get?_isSome_iff d sym).1 (by rw [h]; rfl)

theorem analyseImport_verdict (src : Source P I) (path : Option Str) (i : ImportItem P) (c : Ctx) :
    Verdict (itemChecks src path i) (fun r => Brings c r.2 (i.defines src path) true)
      (analyseImport src path i c : Except (AErr I) _) := by
  cases i with
  | wild old =>
    simp only [analyseImport, itemChecks, ImportItem.defines, List.append_assoc]
    refine (loadModule_verdict src path).bind (fun m hm _ => ?_)
    simp only [moduleSymbols, wildNames, hm]
    refine (publicSymbols_verdict m.2 m.1).bind (fun pub hpub _ => ?_)
    rw [← hpub]
    exact (valueSlots_verdict pub c).map (fun r hr _ => .pure hr)
  | name sym ren old =>
    simp only [analyseImport, itemChecks, ImportItem.defines]
    by_cases hp : path = none
    · simp only [hp, if_true]
      exact ⟨fun a ha => (by cases ha), fun e he => by cases he; rfl⟩
    · simp only [hp, if_false]
      have key : Verdict ([loadCheck src path] ++ [presentCheck (moduleSymbols src path) sym,
          symbolCheck (asName sym ren)]) (fun r => Brings c r.2 [asName sym ren] true)
          (do
            let (symbols, st) ← loadModule src path
            match Dict.get? symbols sym with
            | none => .error (.importErr sym)
            | some v => do
              let (s, c) ← newSlot c (renamed sym ren)
              return (.name sym ren (some (s.id, importValue sym st v)), c) :
            Except (AErr I) (ImportItem P × Ctx)) := by
        refine (loadModule_verdict src path).bind (fun m hm _ => ?_)
        simp only [moduleSymbols, hm]
        cases hg : Dict.get? m.1 sym with
        | none =>
          refine ⟨fun a ha => (by cases ha), fun e he => ?_⟩
          cases he
          simp [presentCheck, get?_none _ _ hg, firstFailed]
        | some v =>
          refine Verdict.bind (l := [_, _]) (Q := fun r => Brings c r.2 [asName sym ren] true) (m := [])
            ?_ (fun r hr _ => .pure hr)
          have := newSlot_verdict (I := I) c (renamed sym ren)
          rw [renamed_asName] at this ⊢
          simpa only [Verdict, presentCheck, get?_some _ _ _ hg, if_true, firstFailed] using this
      exact key
  | cntx sym ren old =>
    simp only [analyseImport, itemChecks, ImportItem.defines]
    cases hg : Dict.get? src.context sym with
    | none =>
      refine ⟨fun a ha => (by cases ha), fun e he => ?_⟩
      cases he
      simp [presentCheck, get?_none _ _ hg, firstFailed]
    | some v =>
      refine Verdict.bind (l := [_, _]) (Q := fun r => Brings c r.2 [asName sym ren] true) (m := [])
        ?_ (fun r hr _ => .pure hr)
      have := newSlot_verdict (I := I) c (renamed sym ren)
      rw [renamed_asName] at this ⊢
      simpa only [Verdict, presentCheck, get?_some _ _ _ hg, if_true, firstFailed] using this

theorem analyseImports_verdict (src : Source P I) (path : Option Str) (is : List (ImportItem P))
    (c : Ctx) :
    Verdict (is.flatMap (itemChecks src path))
      (fun r => Brings c r.2 (is.flatMap (fun i => i.defines src path)) true)
      (analyseImports src path is c : Except (AErr I) _) := by
  induction is generalizing c with
  | nil => exact .pure (Brings.refl c)
  | cons i is ih =>
    simp only [analyseImports, List.flatMap_cons]
    exact (analyseImport_verdict src path i c).bind (fun r hr _ => (ih r.2).map
      (fun r' hr' _ => .pure (hr.trans hr')))

/-! ### Statements -/

theorem Brings.leave {c c1 c' : Ctx} {A : List Str} {p : Bool} (h : Brings c1 c' A p)
    (hb : c1.binds = c.binds) (hc : c1.control = c.control) (hp : c1.prolog = c.prolog) :
    Brings c (c.leave c') [] p := by
  have ht : (c.leave c').binds = c.binds := by
    have := h.take
    rw [hb] at this
    exact this
  refine ⟨⟨[], by simp [ht]⟩, fun x => ?_, ?_, ?_, by simp⟩
  · simp [ht]
  · show c'.control = _
    rw [h.control, hc]
  · show c'.prolog = _
    rw [h.prolog, hp]

theorem pushnew_prolog (c : Ctx) (ps : List (Str × SlotInfo)) : (c.pushnew ps).prolog = c.prolog := by
  induction ps generalizing c with
  | nil => rfl
  | cons a ps ih =>
    obtain ⟨k, v⟩ := a
    simp only [Ctx.pushnew]
    split
    · exact ih c
    · rw [ih]; rfl

theorem Brings.merge {c c' : Ctx} {A : List Str} {p : Bool} (h : Brings c c' A p) :
    Brings c (c.mergeBranch c') A p := by
  have fr := Ctx.pushnew_frame { c' with binds := c'.binds.take c.binds.length }
    (Dict.update [] (c'.binds.drop c.binds.length))
  obtain ⟨_, f2, _, _, new, f5, _⟩ := fr
  refine ⟨⟨new, ?_⟩, fun x => ?_, ?_, ?_, h.proper⟩
  · unfold Ctx.mergeBranch
    rw [f5]
    simp only [h.take]
  · unfold Ctx.mergeBranch
    rw [Ctx.pushnew_adds _ _ x, Ctx.keys_update]
    simp only [h.take, List.map_nil, List.not_mem_nil, false_or]
    rw [← h.adds x]
    obtain ⟨new, e⟩ := h.binds
    rw [e, List.drop_left, List.map_append, List.mem_append]
  · unfold Ctx.mergeBranch
    rw [f2]
    exact h.control
  · unfold Ctx.mergeBranch
    rw [pushnew_prolog]
    exact h.prolog

/-- Only the counter of control blocks is different. -/
theorem Brings.control' {c c0 c' : Ctx} {A : List Str} {p : Bool} (h : Brings c0 c' A p)
    (hb : c0.binds = c.binds) (hp : c0.prolog = c.prolog) :
    Brings c { c' with control := c.control } A p := by
  refine ⟨?_, fun x => ?_, rfl, ?_, h.proper⟩
  · obtain ⟨new, e⟩ := h.binds
    exact ⟨new, by rw [← hb]; exact e⟩
  · rw [← hb]; exact h.adds x
  · rw [← hp]; exact h.prolog

theorem leaveProlog_check (b : Stmt P) (c : Ctx) :
    leaveProlog b c = { c with prolog := c.prolog && prologBlock b } := by
  cases b with
  | comment => simp [leaveProlog, prologBlock]
  | imports k _ _ => cases k <;> simp [leaveProlog, prologBlock]
  | _ => simp [leaveProlog, prologBlock]

variable (src : Source P I)

mutual
theorem analyse_verdict : ∀ (s : Stmt P) (c : Ctx) (S : List Str) (ctl : Bool), Scoped S c.binds →
    ctl = decide (1 ≤ c.control) →
    Verdict (checks src S ctl c.prolog s) (fun r => Brings c r.2 (defined src s) (inProlog s))
      (analyse src s c)
  | .static _, c, S, ctl, hS, hc => by
    simp only [analyse, checks, defined, inProlog]; exact .pure (Brings.refl c)
  | .indent _, c, S, ctl, hS, hc => by
    simp only [analyse, checks, defined, inProlog]; exact .pure (Brings.refl c)
  | .dedent _, c, S, ctl, hS, hc => by
    simp only [analyse, checks, defined, inProlog]; exact .pure (Brings.refl c)
  | .line l, c, S, ctl, hS, hc => by
    simp only [analyse, checks, defined, inProlog]
    exact (analyseLine_verdict hS.same l).map (fun _ _ _ => .pure (Brings.refl c))
  | .xblock m mo b, c, S, ctl, hS, hc => by
    simp only [analyse, checks, defined, inProlog, leaveProlog_check]
    refine (analyse_verdict b { c with prolog := c.prolog && prologBlock b } S ctl hS hc).map
      (fun r hr _ => .pure ?_)
    exact ⟨hr.binds, hr.adds, hr.control, by rw [hr.prolog, Bool.and_assoc], hr.proper⟩
  | .text lead items, c, S, ctl, hS, hc => by
    simp only [analyse, checks, defined, inProlog]
    exact (analyseItems_verdict hS.same items).map (fun _ _ _ => .pure (Brings.refl c))
  | .comment, c, S, ctl, hS, hc => by
    simp only [analyse, checks, defined, inProlog]; exact .pure (Brings.refl c)
  | .embed e, c, S, ctl, hS, hc => by
    simp only [analyse, checks, defined, inProlog]
    exact (analyseExpr_verdict hS.same e).map (fun _ _ _ => .pure (Brings.refl c))
  | .struct tags b, c, S, ctl, hS, hc => by
    simp only [analyse, checks, defined, inProlog]
    exact (analyseTags_verdict hS.same tags).bind (fun _ _ _ =>
      (analyse_verdict b { c with regular := c.regular + 1 } S ctl hS hc).map (fun r hr _ =>
        .pure (hr.leave (c := c) rfl rfl rfl)))
  | .defn id name sl ba as b, c, S, ctl, hS, hc => by
    simp only [analyse, checks, defined, inProlog, List.append_assoc]
    refine Verdict.guard (by rw [hc, decide_not]) (fun hn => ?_)
    have hd : (usesOf S ((ba.toList ++ as).flatMap (fun a => namesOpt a.default)) :
        List (Option (AErr I))) = usesOf S (ba.toList.flatMap (fun a => namesOpt a.default)) ++
        usesOf S (as.flatMap (fun a => namesOpt a.default)) := by
      rw [List.flatMap_append, usesOf_append]
    have ha : ((attrNames ba as).map symbolCheck : List (Option (AErr I))) =
        ((ba.toList.map (fun a => '$' :: a.name)).map symbolCheck) ++
        ((as.map (fun a => '$' :: a.name)).map symbolCheck) := by
      simp only [attrNames, List.map_append]
    rw [hd, ha]
    simp only [List.append_assoc]
    refine (analyseDefaults_verdict hS.same ba.toList).bind (fun ba' hba _ => ?_)
    refine (analyseDefaults_verdict hS.same as).bind (fun as' has _ => ?_)
    rw [← hba, ← has]
    refine (declareAttrs_verdict ba' _).bind (fun r1 h1 _ => ?_)
    refine (declareAttrs_verdict as' r1.2).bind (fun r2 h2 _ => ?_)
    have h12 := h1.trans h2
    have hat : attrNames ba as =
        ba'.map (fun a => '$' :: a.name) ++ as'.map (fun a => '$' :: a.name) := by
      rw [hba, has]; simp only [attrNames, List.map_append]
    have hsc := h12.scoped (S := S) hS
    rw [← hat] at hsc
    have hc2 : ctl = decide (1 ≤ r2.2.control) := by rw [h12.control]; exact hc
    have hp2 : r2.2.prolog = c.prolog := by rw [h12.prolog]; simp
    have hb := analyse_verdict b r2.2 _ ctl hsc hc2
    rw [hp2] at hb
    refine hb.bind (fun r3 h3 _ => ?_)
    have hl := Brings.leave (c := c) (h12.trans h3) rfl rfl rfl
    refine (newSlot_verdict _ _).map (fun r4 h4 _ => .pure ?_)
    have := hl.trans h4
    simpa using this
  | .imports true path items, c, S, ctl, hS, hc => by
    simp only [analyse, checks, defined, inProlog]
    have key := analyseImports_verdict src path items c
    have hm : Verdict (items.flatMap (itemChecks src path))
        (fun r => Brings c r.2 (items.flatMap (fun i => i.defines src path)) true)
        (do let (items, c) ← analyseImports src path items c
            return (.imports true path items, c) : Except (AErr I) (Stmt P × Ctx)) :=
      key.map (fun r hr _ => .pure hr)
    cases hp : c.prolog
    · refine ⟨fun a ha => (by simp at ha), fun e he => ?_⟩
      simp only [Bool.false_eq_true, if_false, Except.error.injEq] at he
      subst he
      rfl
    · exact hm
  | .imports false path items, c, S, ctl, hS, hc => by
    simp only [analyse, checks, defined, inProlog]
    exact Verdict.guard (by rw [hc, decide_not]) (fun _ =>
      (analyseImports_verdict src path items c).map (fun r hr _ => .pure hr))
  | .tryBlock bs, c, S, ctl, hS, hc => by
    simp only [analyse, checks, defined, inProlog]
    exact (analyseBranches_verdict bs { c with control := c.control + 1 } S hS (by simp)).map
      (fun r hr _ => .pure (hr.control' (c := c) rfl rfl))
  | .ifBlock cs els, c, S, ctl, hS, hc => by
    simp only [analyse, checks, defined, inProlog]
    refine (analyseClauses_verdict cs { c with control := c.control + 1 } S hS (by simp)).bind
      (fun r hr _ => ?_)
    have he := analyseElse_verdict els r.2 _ (hr.scoped hS) (by rw [hr.control]; simp)
    rw [hr.prolog] at he
    exact he.map (fun r' hr' _ => .pure ((hr.trans hr').control' (c := c) rfl rfl))
  | .elseClause b, c, S, ctl, hS, hc => by
    simp only [analyse, checks, defined, inProlog]
    exact (analyseOpt_verdict b c S ctl hS hc).map (fun r hr _ => .pure hr)
  | .whileBlock t b els, c, S, ctl, hS, hc => by
    simp only [analyse, checks, defined, inProlog, List.append_assoc]
    refine (analyseExpr_verdict hS.same t).bind (fun t' _ _ => ?_)
    refine (analyseOpt_verdict b { c with control := c.control + 1 } S true hS (by simp)).bind
      (fun r hr _ => ?_)
    have hm := hr.merge
    have he := analyseElse_verdict els _ _ (hm.scoped hS) (by rw [hm.control]; simp)
    rw [hm.prolog] at he
    exact he.map (fun r' hr' _ => .pure ((hm.trans hr').control' (c := c) rfl rfl))
  | .forBlock t e rest, c, S, ctl, hS, hc => by
    simp only [analyse, checks, defined, inProlog, List.append_assoc]
    refine (analyseExpr_verdict hS.same e).bind (fun t' _ _ => ?_)
    refine (analyseTarget_verdict t { c with control := c.control + 1 } S hS).bind (fun r hr _ => ?_)
    have hf := analyseFirst_verdict rest r.2 _ (hr.scoped hS) (by rw [hr.control]; simp)
    rw [hr.prolog, Bool.and_true] at hf
    refine hf.map (fun r' hr' _ => .pure ?_)
    have := (hr.trans hr').control' (c := c) rfl rfl
    simpa using this
  | .exprBlock e, c, S, ctl, hS, hc => by
    simp only [analyse, checks, defined, inProlog]
    exact (analyseExpr_verdict hS.same e).map (fun _ _ _ => .pure (Brings.refl c))
  | .assign t op e, c, S, ctl, hS, hc => by
    simp only [analyse, checks, defined, inProlog]
    exact (analyseExpr_verdict hS.same e).bind (fun _ _ _ =>
      (analyseTarget_verdict t c S hS).map (fun r hr _ => .pure hr))
  | .body ss, c, S, ctl, hS, hc => by
    simp only [analyse, checks, defined, inProlog]
    exact (analyseAll_verdict ss c S ctl hS hc).map (fun r hr _ => .pure hr)
  | .pass, c, S, ctl, hS, hc => by
    simp only [analyse, checks, defined, inProlog]; exact .pure (Brings.refl c)
theorem analyseAll_verdict : ∀ (ss : List (Stmt P)) (c : Ctx) (S : List Str) (ctl : Bool),
    Scoped S c.binds → ctl = decide (1 ≤ c.control) →
    Verdict (checksAll src S ctl c.prolog ss)
      (fun r => Brings c r.2 (definedAll src ss) (inPrologAll ss)) (analyseAll src ss c)
  | [], c, S, ctl, hS, hc => by
    simp only [analyseAll, checksAll, definedAll, inPrologAll]; exact .pure (Brings.refl c)
  | s :: ss, c, S, ctl, hS, hc => by
    simp only [analyseAll, checksAll, definedAll, inPrologAll]
    refine (analyse_verdict s c S ctl hS hc).bind (fun r hr _ => ?_)
    have h := analyseAll_verdict ss r.2 _ ctl (hr.scoped hS) (by rw [hr.control]; exact hc)
    rw [hr.prolog] at h
    exact h.map (fun r' hr' _ => .pure (hr.trans hr'))
theorem analyseBranches_verdict : ∀ (ss : List (Stmt P)) (c : Ctx) (S : List Str),
    Scoped S c.binds → 1 ≤ c.control →
    Verdict (checksAll src S true c.prolog ss)
      (fun r => Brings c r.2 (definedAll src ss) (inPrologAll ss)) (analyseBranches src ss c)
  | [], c, S, hS, hc => by
    simp only [analyseBranches, checksAll, definedAll, inPrologAll]; exact .pure (Brings.refl c)
  | s :: ss, c, S, hS, hc => by
    simp only [analyseBranches, checksAll, definedAll, inPrologAll]
    refine (analyse_verdict s c S true hS (by simp [hc])).bind (fun r hr _ => ?_)
    have hm := hr.merge
    have h := analyseBranches_verdict ss _ _ (hm.scoped hS) (by rw [hm.control]; exact hc)
    rw [hm.prolog] at h
    exact h.map (fun r' hr' _ => .pure (hm.trans hr'))
theorem analyseClauses_verdict : ∀ (cs : List (Expr × Option (Stmt P))) (c : Ctx) (S : List Str),
    Scoped S c.binds → 1 ≤ c.control →
    Verdict (checksClauses src S c.prolog cs)
      (fun r => Brings c r.2 (definedClauses src cs) (inPrologClauses cs)) (analyseClauses src cs c)
  | [], c, S, hS, hc => by
    simp only [analyseClauses, checksClauses, definedClauses, inPrologClauses]
    exact .pure (Brings.refl c)
  | cl :: cs, c, S, hS, hc => by
    simp only [analyseClauses, checksClauses, definedClauses, inPrologClauses]
    refine (analyseClause_verdict cl c S hS hc).bind (fun r hr _ => ?_)
    have hm := hr.merge
    have h := analyseClauses_verdict cs _ _ (hm.scoped hS) (by rw [hm.control]; exact hc)
    rw [hm.prolog] at h
    exact h.map (fun r' hr' _ => .pure (hm.trans hr'))
theorem analyseClause_verdict : ∀ (cl : Expr × Option (Stmt P)) (c : Ctx) (S : List Str),
    Scoped S c.binds → 1 ≤ c.control →
    Verdict (checksClause src S c.prolog cl)
      (fun r => Brings c r.2 (definedClause src cl) (inPrologClause cl)) (analyseClause src cl c)
  | (t, b), c, S, hS, hc => by
    simp only [analyseClause, checksClause, definedClause, inPrologClause]
    exact (analyseExpr_verdict hS.same t).bind (fun _ _ _ =>
      (analyseOpt_verdict b c S true hS (by simp [hc])).map (fun r hr _ => .pure hr))
theorem analyseElse_verdict : ∀ (o : Option (Stmt P)) (c : Ctx) (S : List Str),
    Scoped S c.binds → 1 ≤ c.control →
    Verdict (checksOpt src S true c.prolog o)
      (fun r => Brings c r.2 (definedOpt src o) (inPrologOpt o)) (analyseElse src o c)
  | none, c, S, hS, hc => by
    simp only [analyseElse, checksOpt, definedOpt, inPrologOpt]; exact .pure (Brings.refl c)
  | some s, c, S, hS, hc => by
    simp only [analyseElse, checksOpt, definedOpt, inPrologOpt]
    exact (analyse_verdict s c S true hS (by simp [hc])).map (fun r hr _ => .pure hr.merge)
theorem analyseOpt_verdict : ∀ (o : Option (Stmt P)) (c : Ctx) (S : List Str) (ctl : Bool),
    Scoped S c.binds → ctl = decide (1 ≤ c.control) →
    Verdict (checksOpt src S ctl c.prolog o)
      (fun r => Brings c r.2 (definedOpt src o) (inPrologOpt o)) (analyseOpt src o c)
  | none, c, S, ctl, hS, hc => by
    simp only [analyseOpt, checksOpt, definedOpt, inPrologOpt]; exact .pure (Brings.refl c)
  | some s, c, S, ctl, hS, hc => by
    simp only [analyseOpt, checksOpt, definedOpt, inPrologOpt]
    exact (analyse_verdict s c S ctl hS hc).map (fun r hr _ => .pure hr)
theorem analyseFirst_verdict : ∀ (ss : List (Stmt P)) (c : Ctx) (S : List Str),
    Scoped S c.binds → 1 ≤ c.control →
    Verdict (checksFirst src S c.prolog ss)
      (fun r => Brings c r.2 (definedFirst src ss) (inPrologFirst ss)) (analyseFirst src ss c)
  | [], c, S, hS, hc => by
    simp only [analyseFirst, checksFirst, definedFirst, inPrologFirst]; exact .pure (Brings.refl c)
  | s :: ss, c, S, hS, hc => by
    simp only [analyseFirst, checksFirst, definedFirst, inPrologFirst]
    exact (analyse_verdict s c S true hS (by simp [hc])).map (fun r hr _ => .pure hr)
end

theorem analyseDocument_verdict (first : Slot) (globals : Dict Str (Val P))
    (children : List (Stmt P)) :
    Verdict (documentChecks src (globals.map Prod.fst) children) (fun _ => True)
      (analyseDocument src first globals children) := by
  unfold analyseDocument documentChecks
  refine (valueSlots_verdict globals _).bind (fun r hr _ => ?_)
  have hS : Scoped (globals.map Prod.fst) r.2.binds :=
    hr.scoped (S := []) ⟨fun x => by simp, by simp⟩
  have h := analyseAll_verdict src children r.2 _ false hS (by rw [hr.control]; rfl)
  rw [hr.prolog] at h
  exact h.map (fun _ _ _ => .pure trivial)

end
end Verif
