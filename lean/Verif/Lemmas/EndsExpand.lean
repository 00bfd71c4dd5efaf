import Verif.Lemmas.EndsTransl

/-! Expansion of hypertags ends, as they use hypertags that have been defined before; so does translation of documents. -/

namespace Verif
open Py Spec

section
variable {P X W α β : Type} {O : Outside P W} {G : DefId → Slot → Prop} {σ : StateId} {ops : PyOps P X W}
  {ex : Nat → HVal → Val P → List (Val P) → List (Str × Val P) → StateId → Comp P X W (List Ref)} {ca : Nat → Callback P → Comp P X W (Val P)}
  (C : O.Calm ops)
include C

local notation "𝓔" => bounded ops ex ca

namespace Halts

theorem assignAttr {n : Nat} (slot : Option Slot) {v : Val P} (h : O.Plain n v) :
    Halts O G σ n (fun _ _ => True) (fun _ => (Verif.assignAttr σ slot v : Comp P X W Unit)) := by
  cases slot with
  | none => exact .raise _
  | some sl => exact .setSlot C sl (.inl h)

omit C in
theorem bindPositional_entries {n : Nat} {as : List AttrDef} {vs : List (Val P)} {kw kw' : Dict Str (Val P)}
    (hv : Outside.Plains O n vs) (hk : Outside.Entries O n kw) (h : bindPositional as vs kw = some kw') : Outside.Entries O n kw' := by
  induction as generalizing vs kw with
  | nil => simp only [bindPositional, Option.some.injEq] at h; exact h ▸ hk
  | cons a as ih =>
    cases vs with
    | nil => simp only [bindPositional, Option.some.injEq] at h; exact h ▸ hk
    | cons v vs =>
      simp only [bindPositional] at h
      split at h
      · cases h
      · exact ih (fun w hw => hv w (by simp [hw])) (entries_set hk (hv v (by simp))) h

theorem bindDefaults (n : Nat) (as : List AttrDef) (h : ∀ a ∈ as, Expr.readsOpt (NoTag G) a.default)
    (kw : Dict Str (Val P)) (hk : Outside.Entries O n kw) : Halts O G σ n (Outside.Entries O) (fun i => Verif.bindDefaults (𝓔 i) σ as kw) := by
  induction as generalizing kw n with
  | nil => exact .pure (fun _ hm => C.entries hk hm)
  | cons a as ih =>
    simp only [Verif.bindDefaults]
    have h1 := h a (by simp)
    have ih := fun i => ih i (fun b hb => h b (by simp [hb]))
    refine .ite (ih _ _ hk) ?_
    cases hd : a.default with
    | none => exact .raise _
    | some e =>
      rw [hd] at h1
      exact (Halts.eval C n e h1).bind (fun m v hm hv => ih _ _ (entries_set (C.entries hk hm) hv))

theorem assignAttrs (n : Nat) (as : List AttrDef) (l : List (Str × Val P)) (h : Outside.Entries O n l) :
    Halts O G σ n (fun _ _ => True) (fun _ => (Verif.assignAttrs σ as l : Comp P X W Unit)) := by
  induction l generalizing n with
  | nil => exact .pure (fun _ _ => trivial)
  | cons q l ih =>
    obtain ⟨k, v⟩ := q
    simp only [Verif.assignAttrs]
    have ih : ∀ m, n ≤ m → _ := fun m hm => ih m (C.entries (fun a ha => h a (by simp [ha])) hm)
    cases hf : as.find? (fun a => decide (a.name = k)) with
    | none => exact (Halts.raise (Q := fun _ _ => True) _).bind (fun m _ hm _ => ih m hm)
    | some a => exact (Halts.assignAttr C _ (h (k, v) (by simp))).bind (fun m _ hm _ => ih m hm)

theorem assignBody (n : Nat) (a : Option AttrDef) {body : Val P} (h : O.Plain n body) :
    Halts O G σ n (fun _ _ => True) (fun i => Verif.assignBody (𝓔 i) σ a body) := by
  cases a with
  | none => exact (Halts.truthOf C h).bind (fun _ _ _ _ => .ite (.raise _) (.pure (fun _ _ => trivial)))
  | some d => exact Halts.assignAttr C _ h

theorem appendAttrs (n : Nat) {d : DefInfo P} (hd : ∀ a ∈ d.attrs, Expr.readsOpt (NoTag G) a.default) {body : Val P} (hb : O.Plain n body)
    {as : List (Val P)} (ha : Outside.Plains O n as) {kw : Dict Str (Val P)} (hk : Outside.Entries O n kw) :
    Halts O G σ n (fun _ _ => True) (fun i => Verif.appendAttrs (𝓔 i) σ d body as kw) := by
  simp only [Verif.appendAttrs]
  refine .ite (.raise _) (.ite (.raise _) (.ite (.raise _) ?_))
  cases hp : bindPositional d.attrs as kw with
  | none => exact .raise _
  | some kw1 =>
    exact (Halts.bindDefaults C n _ hd _ (bindPositional_entries ha hk hp)).bind (fun m1 kw2 hm1 h2 => (Halts.assignAttrs C m1 _ _ h2).bind
      (fun m2 _ hm2 _ => (Halts.assignBody C m2 _ (C.plain hb (Nat.le_trans hm1 hm2))).bind (fun _ _ _ _ => .pure (fun _ _ => trivial))))

omit C in
theorem firstInline {n : Nat} {ns : List Ref} (h : Refs n ns) :
    Halts O G σ n (fun _ _ => True) (fun _ => (Verif.firstInline ns : Comp P X W Unit)) := by
  cases ns with
  | nil => exact .pure (fun _ _ => trivial)
  | cons r rs => exact .setOutline _ (h r (by simp))

theorem expandDef {n0 : Nat} {b : Slot} (hx : Expands O G σ ex n0 b) (n : Nat) (hn : n0 ≤ n) (id : DefId) {d : DefInfo P} (hd : d.Orderly (O.Plain n0) G b)
    {body : Val P} (hb : O.Plain n body) {as : List (Val P)} (ha : Outside.Plains O n as) {kw : Dict Str (Val P)} (hk : Outside.Entries O n kw) :
    Halts O G σ n Refs (fun i => Verif.expandDef (𝓔 i) id d body as kw σ) :=
  (Halts.appendAttrs C n hd.attrs hb ha hk).bind (fun m1 da h1 _ => (Halts.transl C hx m1 d.body (Nat.le_trans hn h1) hd.body).bind
    (fun m2 out h2 ho => (Halts.curIndent).bind (fun m3 ind h3 hi => (Halts.setIndent _ (Refs.mono ho h3)).bind
      (fun m4 _ h4 _ => (Halts.firstInline (Refs.mono ho (Nat.le_trans h3 h4))).bind (fun m5 _ h5 _ =>
        (Halts.newNode C (Refs.mono ho (Nat.le_trans h3 (Nat.le_trans h4 h5)))).bind
          (fun _ _ _ hr => .pure (fun _ hm => Refs.one (Nat.lt_of_lt_of_le hr hm))))))))

/-! ### Hypertags -/

omit C in
theorem envAt_bounded (Γ : DefId → DefInfo P) (m : Nat) :
    envAt ops Γ m = bounded ops (fun i => (envAt ops Γ i).expand) (fun i => (envAt ops Γ i).call) m := by
  cases m <;> rfl

/-- Each hypertag uses only hypertags in slots before its own. -/
theorem expands (Γ : DefId → DefInfo P) {n0 : Nat} (hΓ : ∀ id k, G id k → (Γ id).Orderly (O.Plain n0) G k) (b : Slot) :
    Expands O G σ (fun i => (envAt ops Γ i).expand) n0 b := by
  induction b with
  | zero => exact fun id k hk => absurd hk (Nat.not_lt_zero _)
  | succ b ih =>
    intro id k hk hg n body as kw hn hb ha hkw
    have hx : Expands O G σ (fun i => (envAt ops Γ i).expand) n0 k := fun id' k' hk' => ih id' k' (Nat.lt_of_lt_of_le hk' (Nat.le_of_lt_succ hk))
    intro M hM hm
    obtain ⟨N, r, M', h1, h2, h3, h4, h5, h6⟩ :=
      Halts.expandDef (ca := fun i => (envAt ops Γ i).call) C hx n hn id (hΓ id k hg) hb ha hkw M hM hm
    refine ⟨N + 1, r, M', fun i hi => ?_, h2, h3, h4, h5, h6⟩
    obtain ⟨j, rfl⟩ : ∃ j, i = j + 1 := ⟨i - 1, by omega⟩
    show Verif.expandHyper (envAt ops Γ j) Γ (.defn id) body as kw σ M = _
    rw [Verif.expandHyper, envAt_bounded]
    exact h1 j (by omega)

omit C in
theorem readSymbols (n : Nat) (l : List (Str × Slot)) : Halts O G σ n (fun _ _ => True) (fun _ => (Verif.readSymbols σ l : Comp P X W _)) := by
  induction l generalizing n with
  | nil => exact .pure (fun _ _ => trivial)
  | cons a l ih =>
    obtain ⟨s, sl⟩ := a
    simp only [Verif.readSymbols]
    refine (Halts.getSlot sl).bind (fun m v _ _ => (ih m).bind (fun _ _ _ _ => ?_))
    cases v with
    | none => exact .pure (fun _ _ => trivial)
    | some v => exact .pure (fun _ _ => trivial)

theorem translDocument (Γ : DefId → DefInfo P) {n0 : Nat} {b : Slot} (hΓ : ∀ id k, G id k → (Γ id).Orderly (O.Plain n0) G k) {doc : Document P}
    (hs : ∀ a ∈ doc.slotsIn, O.Plain n0 a.2) (hd : Stmt.orderlyAll (O.Plain n0) G b doc.children) :
    Halts O G σ n0 (fun _ _ => True) (fun i => Verif.translDocument (envAt ops Γ i) σ doc) := by
  have he : (fun i => Verif.translDocument (envAt ops Γ i) σ doc) = fun i => Verif.translDocument
      (bounded ops (fun i => (envAt ops Γ i).expand) (fun i => (envAt ops Γ i).call) i) σ doc := by
    funext i
    rw [← envAt_bounded]
  rw [he]
  exact (Halts.setSlots C n0 hs).bind (fun m1 _ h1 _ => (Halts.translAll C (expands C Γ hΓ b) m1 _ h1 hd).bind (fun m2 ns h2 hn =>
    (Halts.newNode C hn).bind (fun m3 r h3 hr => (Halts.readNode hr).bind (fun m4 nd h4 hnd =>
      (Halts.writeNode (r := r) (d := { nd with indent := some [] }) hnd).bind (fun m5 _ _ _ => (Halts.readSymbols m5 _).bind (fun _ _ _ _ => .pure (fun _ _ => trivial)))))))

end Halts
end
end Verif
