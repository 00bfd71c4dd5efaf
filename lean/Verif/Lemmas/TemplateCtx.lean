import Verif.Lemmas.Situations

/-! Contexts of the analysis of templates: names that are in use keep their slots. -/

namespace Verif
open Py Spec Ctx

/-- What is known about the place of a template: the variable of the body of the component in which it is, the components that may be used
(with the numbers of their definitions and their output), what these need, where this is stored (`fix`, and the symbols `keep` of these slots
that are not to be assigned), the slots `priv` of the components, and which slots are the template's own: from `lo`, with the depth `deep` or more. -/
structure Setting (P W : Type) where
  bv : Option Str
  hyper : Str → Option (DefId × Sig × (List (Str × Data) → List Chunk → Option (List Chunk)))
  base : Store P W → Prop
  fix : Slot → Prop
  keep : Str → Prop
  priv : Slot → Prop
  lo : Slot
  deep : Nat

/-- No components. -/
def Setting.plain (P W : Type) : Setting P W := ⟨none, fun _ => none, fun _ => True, fun _ => False, fun _ => False, fun _ => False, 0, 0⟩

section
variable {P W : Type} (L : Setting P W)

/-- Symbols in use. -/
def InView (Γ : Str → Prop) (void : Str → Option Bool) (sym : Str) : Prop :=
  Vis Γ void sym ∨ (∃ n h, L.hyper n = some h ∧ sym = '%' :: n) ∨ ∃ b, L.bv = some b ∧ sym = '$' :: b

/-- Slots have been created, and different symbols have different slots. -/
structure Ctx.Good (c : Ctx) : Prop where
  made : ∀ b ∈ c.binds, b.2.id < c.next
  own : ∀ b ∈ c.binds, ∀ b' ∈ c.binds, b.2.id = b'.2.id → b.1 = b'.1
  pub : ∀ b ∈ c.binds, ¬ L.priv b.2.id
  old : ∀ sl, L.priv sl → sl < c.next
  fixed : ∀ sl, L.fix sl → sl < c.next
  low : L.lo ≤ c.next
  inner : ∀ b ∈ c.binds, L.deep ≤ b.2.depth → L.lo ≤ b.2.id ∧ (L.fix b.2.id → L.keep b.1)
  reg : L.deep ≤ c.regular

/-- The symbols in use are bound, and those that must not be assigned are in use. -/
structure Bound (Γ : Str → Prop) (void : Str → Option Bool) (b : List (Str × SlotInfo)) : Prop where
  sees : ∀ sym, InView L Γ void sym → ∃ sl, lookupBind b sym = some sl
  keep : ∀ y, L.keep ('$' :: y) → Γ y

/-- The context `c'` comes after `c`: the symbols in use have the same slots. -/
structure Grows (Γ : Str → Prop) (void : Str → Option Bool) (c c' : Ctx) : Prop where
  step : c.Step c'
  good : c'.Good L
  same : ∀ sym, InView L Γ void sym → lookupBind c'.binds sym = lookupBind c.binds sym
end

section
variable {P W : Type} {L : Setting P W} {Γ Γ' : Str → Prop} {void : Str → Option Bool} {c c' c1 c2 : Ctx}

theorem Grows.refl (h : c.Good L) : Grows L Γ void c c := ⟨.refl c, h, fun _ _ => rfl⟩

theorem Vis.mono (h : ∀ y, Γ y → Γ' y) {sym : Str} (hs : Vis Γ void sym) : Vis Γ' void sym := by
  rcases hs with ⟨y, h1, h2⟩ | hs
  · exact .inl ⟨y, h y h1, h2⟩
  · exact .inr hs

theorem InView.mono (h : ∀ y, Γ y → Γ' y) {sym : Str} (hs : InView L Γ void sym) : InView L Γ' void sym :=
  hs.imp_left (fun h' => h'.mono h)

theorem Bound.binds {b : List (Str × SlotInfo)} (h : Bound L Γ void b) : Binds Γ void b := fun sym hs => h.sees sym (.inl hs)

theorem Grows.trans (h : Grows L Γ void c c1) (h' : Grows L Γ' void c1 c2) (hΓ : ∀ y, Γ y → Γ' y) : Grows L Γ void c c2 :=
  ⟨h.step.trans h'.step, h'.good, fun sym hs => (h'.same sym (hs.mono hΓ)).trans (h.same sym hs)⟩

theorem Grows.bound (h : Grows L Γ void c c') (hb : Bound L Γ void c.binds) : Bound L Γ void c'.binds :=
  ⟨fun sym hs => by rw [h.same sym hs]; exact hb.sees sym hs, hb.keep⟩

/-- One more variable. -/
theorem Bound.add {b : List (Str × SlotInfo)} (hb : Bound L Γ void b) {v : Str} {s : SlotInfo} (h : lookupBind b ('$' :: v) = some s) :
    Bound L (fun y => y = v ∨ Γ y) void b := by
  refine ⟨?_, fun y hy => .inr (hb.keep y hy)⟩
  rintro sym ((⟨y, hy, rfl⟩ | hs) | hs)
  · by_cases hyv : y = v
    · subst hyv; exact ⟨s, h⟩
    · exact hb.sees _ (.inl (.inl ⟨y, hy.resolve_left hyv, rfl⟩))
  · exact hb.sees _ (.inl (.inr hs))
  · exact hb.sees _ (.inr hs)

/-- Counters other than the number of slots, and the prolog, do not matter. -/
theorem Ctx.Good.of (h : c.Good L) (hb : c'.binds = c.binds) (hn : c'.next = c.next) (hr : c.regular ≤ c'.regular) : c'.Good L :=
  ⟨by rw [hb, hn]; exact h.made, by rw [hb]; exact h.own, by rw [hb]; exact h.pub, by rw [hn]; exact h.old, by rw [hn]; exact h.fixed,
    by rw [hn]; exact h.low, by rw [hb]; exact h.inner, Nat.le_trans h.reg hr⟩

theorem Grows.leave (hg : c.Good L) (hb : c1.binds = c.binds) (hn : c1.next = c.next) (hc : c1.control = c.control) (h : c1.Step c') :
    Grows L Γ void c (c.leave c') := by
  have hb' := leave_binds hb h
  have hn' : c.next ≤ (c.leave c').next := by
    have h2 := h.next
    rw [hn] at h2
    exact h2
  refine ⟨leave_step hb hn hc h, ?_, fun sym _ => by rw [hb']⟩
  exact ⟨fun b hb => by rw [hb'] at hb; exact Nat.lt_of_lt_of_le (hg.made b hb) hn', by rw [hb']; exact hg.own, by rw [hb']; exact hg.pub,
    fun sl h => Nat.lt_of_lt_of_le (hg.old sl h) hn', fun sl h => Nat.lt_of_lt_of_le (hg.fixed sl h) hn', Nat.le_trans hg.low hn',
    by rw [hb']; exact hg.inner, hg.reg⟩

theorem lookup_push (b : List (Str × SlotInfo)) (k : Str) (s : SlotInfo) (sym : Str) :
    lookupBind (b ++ [(k, s)]) sym = if k = sym then some s else lookupBind b sym := by
  induction b with
  | nil => simp [lookupBind]
  | cons x b ih =>
    obtain ⟨k', s'⟩ := x
    simp only [List.cons_append, lookupBind, ih]
    by_cases h : k = sym <;> simp [h]

theorem lookup_pushnew (c : Ctx) (ps : List (Str × SlotInfo)) {sym : Str} {s : SlotInfo} (h : lookupBind c.binds sym = some s) :
    lookupBind (c.pushnew ps).binds sym = some s := by
  induction ps generalizing c with
  | nil => exact h
  | cons p ps ih =>
    obtain ⟨k, v⟩ := p
    unfold Ctx.pushnew
    split
    · exact ih c h
    · rename_i hn
      refine ih _ ?_
      show lookupBind (c.binds ++ [(k, v)]) sym = _
      rw [lookup_push, if_neg, h]
      rintro rfl
      exact hn (by unfold Ctx.get; rw [h]; rfl)

theorem Grows.merge (hg : c.Good L) (hb : Bound L Γ void c.binds) (h : Grows L Γ void c c') : Grows L Γ void c (c.mergeBranch c') := by
  have hs := merge_sub h.step
  have hst := merge_step h.step
  refine ⟨hst, ⟨fun b hb => ?_, fun b hb b' hb' => h.good.own b (hs b hb) b' (hs b' hb'), fun b hb => h.good.pub b (hs b hb), ?_, ?_, ?_,
    fun b hb => h.good.inner b (hs b hb), ?_⟩, fun sym hv => ?_⟩
  · rw [merge_next]; exact h.good.made b (hs b hb)
  · rw [merge_next]; exact h.good.old
  · rw [merge_next]; exact h.good.fixed
  · rw [merge_next]; exact h.good.low
  · have := hst.regular
    rw [this]; exact hg.reg
  · obtain ⟨sl, hsl⟩ := hb.sees sym hv
    rw [hsl]
    unfold Ctx.mergeBranch
    refine lookup_pushnew _ _ ?_
    show lookupBind (c'.binds.take c.binds.length) sym = _
    rw [h.step.take]; exact hsl

/-- A slot that a template may write. -/
structure Writable (L : Setting P W) (c : Ctx) (s : SlotInfo) : Prop where
  pub : ¬ L.priv s.id
  own : L.lo ≤ s.id
  made : s.id < c.next
  free : ¬ L.fix s.id

theorem declare_new {I : Type} (hg : c.Good L) {v : Str} (hval : validSymbol ('$' :: v) = true)
    (hne : ∀ sym, InView L Γ void sym → '$' :: v ≠ sym) :
    ∃ s c', (declare c ('$' :: v) : Except (AErr I) _) = .ok (s, c') ∧ Grows L Γ void c c' ∧ lookupBind c'.binds ('$' :: v) = some s ∧
      Writable L c' s ∧ s.id = c.next ∧ c'.binds = c.binds ++ [('$' :: v, s)] ++ [('$' :: v, s)] ∧ c'.next = c.next + 1 := by
  obtain ⟨s, c', h, hb, hnx, hid, hdp⟩ : ∃ s c', (declare c ('$' :: v) : Except (AErr I) _) = .ok (s, c') ∧
      c'.binds = c.binds ++ [('$' :: v, s)] ++ [('$' :: v, s)] ∧ c'.next = c.next + 1 ∧ s.id = c.next ∧ s.depth = c.regular := by
    refine ⟨_, _, by unfold declare newSlot; rw [if_pos hval]; rfl, rfl, rfl, rfl, rfl⟩
  have hp := declare_post c ('$' :: v) _ h
  have aux : ∀ x ∈ c'.binds, x ∈ c.binds ∨ x = ('$' :: v, s) := by
    intro x hx
    rw [hb] at hx
    simp only [List.mem_append, List.mem_singleton] at hx
    rcases hx with (hx | hx) | hx
    · exact .inl hx
    · exact .inr hx
    · exact .inr hx
  have hpriv : ¬ L.priv s.id := fun h => absurd (hg.old _ h) (by rw [hid]; exact Nat.lt_irrefl _)
  have hfix : ¬ L.fix s.id := fun h => absurd (hg.fixed _ h) (by rw [hid]; exact Nat.lt_irrefl _)
  have hlo : L.lo ≤ s.id := by rw [hid]; exact hg.low
  have hmade : s.id < c'.next := by rw [hid, hnx]; exact Nat.lt_succ_self _
  refine ⟨s, c', h, ⟨hp.1, ⟨fun b hb' => ?_, fun b h1 b' h2 he => ?_, fun b hb' => ?_, fun sl h => ?_, fun sl h => ?_, ?_, fun b hb' hd => ?_, ?_⟩,
    fun sym hs => ?_⟩, ?_, ⟨hpriv, hlo, hmade, hfix⟩, hid, hb, hnx⟩
  · rcases aux b hb' with hb' | rfl
    · rw [hnx]; exact Nat.lt_succ_of_lt (hg.made b hb')
    · exact hmade
  · rcases aux b h1 with h1 | rfl <;> rcases aux b' h2 with h2 | rfl
    · exact hg.own b h1 b' h2 he
    · have := hg.made b h1
      rw [he] at this
      exact absurd (hid ▸ this : c.next < c.next) (Nat.lt_irrefl _)
    · have := hg.made b' h2
      rw [← he] at this
      exact absurd (hid ▸ this : c.next < c.next) (Nat.lt_irrefl _)
    · rfl
  · rcases aux b hb' with hb' | rfl
    · exact hg.pub b hb'
    · exact hpriv
  · rw [hnx]; exact Nat.lt_succ_of_lt (hg.old sl h)
  · rw [hnx]; exact Nat.lt_succ_of_lt (hg.fixed sl h)
  · rw [hnx]; exact Nat.le_succ_of_le hg.low
  · rcases aux b hb' with hb' | rfl
    · exact hg.inner b hb' hd
    · exact ⟨hlo, fun h => absurd h hfix⟩
  · have := hp.1.regular
    rw [this]; exact hg.reg
  · rw [hb, lookup_push, if_neg (hne sym hs), lookup_push, if_neg (hne sym hs)]
  · rw [hb, lookup_push, if_pos rfl]

theorem validVar {v : Str} (hv : Spec.Name v) : validSymbol ('$' :: v) = true := by
  cases v with
  | nil => obtain ⟨_, _, h, _⟩ := hv.start; simp at h
  | cons a v => rfl

theorem sees_ne {v : Str} (hn : ¬ Γ v) (hbv : L.bv ≠ some v) : ∀ sym, InView L Γ void sym → '$' :: v ≠ sym := by
  rintro sym ((⟨y, hy, rfl⟩ | ⟨n, b, -, rfl⟩) | ⟨n, b, -, rfl⟩ | ⟨b, hb, rfl⟩) h
  · simp only [List.cons.injEq, true_and] at h; subst h; exact hn hy
  · simp at h
  · simp at h
  · simp only [List.cons.injEq, true_and] at h; subst h; exact hbv hb

/-- The slot for writing a variable that is not in use. -/
theorem writeSlot_new {I : Type} (hg : c.Good L) (hb : Bound L Γ void c.binds) {v : Str} (hv : Spec.Name v) (hn : ¬ Γ v) (hbv : L.bv ≠ some v) :
    ∃ s c', (writeSlot c ('$' :: v) : Except (AErr I) _) = .ok (s, c') ∧ Grows L Γ void c c' ∧ lookupBind c'.binds ('$' :: v) = some s ∧
      Writable L c' s := by
  obtain ⟨s0, c0, d1, d2, d3, d4, -⟩ := declare_new (I := I) hg (validVar hv) (sees_ne (void := void) hn hbv)
  unfold writeSlot
  cases hget : c.get ('$' :: v) with
  | none => exact ⟨s0, c0, d1, d2, d3, d4⟩
  | some s =>
    by_cases h : s.depth = c.regular
    · simp only [h, if_true]
      have hm := lookupBind_mem hget
      have hi := hg.inner _ hm (by show L.deep ≤ s.depth; rw [h]; exact hg.reg)
      exact ⟨s, c, rfl, .refl hg, hget, hg.pub _ hm, hi.1, hg.made _ hm, fun hf => hn (hb.keep _ (hi.2 hf))⟩
    · simp only [h, if_false]
      exact ⟨s0, c0, d1, d2, d3, d4⟩

end

/-! ### Stores -/

section
variable {P X W : Type} {σ : StateId}

/-- Assignment to one variable. -/
def Store.setVar (A : Store P W) (σ : StateId) (sl : Slot) (v : Val P) : Store P W :=
  { A with states := fun τ => if τ = σ then { A.states τ with values := fun t => if t = sl then some v else (A.states τ).values t } else A.states τ }

theorem Store.setVar_ind (A : Store P W) (sl : Slot) (v : Val P) : (A.setVar σ sl v).ind σ = A.ind σ := by
  simp [Store.setVar, Store.ind]

theorem Store.setVar_value (A : Store P W) (sl sl' : Slot) (v : Val P) :
    ((A.setVar σ sl v).states σ).values sl' = if sl' = sl then some v else (A.states σ).values sl' := by
  simp [Store.setVar]

theorem Store.setInd_value (A : Store P W) (i : Str) (sl : Slot) : ((A.setInd σ i).states σ).values sl = (A.states σ).values sl := by
  simp [Store.setInd]

theorem setSlot_evals (A : Store P W) (sl : Slot) (v : Val P) : Evals (setSlot σ sl v : Comp P X W Unit) A () (A.setVar σ sl v) := by
  rintro Mm rfl
  rfl

end

section
variable {P X W : Type} (E : Env P X W) (D : PyData E.ops E.fuel) (σ : StateId) (tagOf : P → TagObj) (void : Str → Option Bool) (L : Setting P W)

/-- The variables have their values, names of elements and of components their meanings, and `rs` is the body of the component. -/
structure Scene (b : List (Str × SlotInfo)) (Γ : Str → Prop) (ρ : Vars) (rs : List Ref) (A : Store P W) : Prop where
  situ : Situ E D σ tagOf void b Γ ρ A
  hypers : ∀ n id sig f, L.hyper n = some (id, sig, f) → ∃ sl, lookupBind b ('%' :: n) = some sl ∧ (A.states σ).values sl.id = some (.hyper (.defn id))
  body : ∀ v, L.bv = some v → ∃ sl, lookupBind b ('$' :: v) = some sl ∧ (A.states σ).values sl.id = some (.dom rs)
  base : L.base A

/-- What components need is not changed by assignments to other slots. -/
structure Setting.Sound : Prop where
  stable : ∀ A A' : Store P W, L.base A → (∀ sl, L.fix sl → (A'.states σ).values sl = (A.states σ).values sl) → L.base A'
  apart : ∀ sl, L.priv sl → ¬ L.fix sl

/-- Only slots of the template and of components are changed. -/
def Quiet (n : Slot) (A A' : Store P W) : Prop :=
  ∀ sl, ¬ L.priv sl → (sl < L.lo ∨ n ≤ sl) → (A'.states σ).values sl = (A.states σ).values sl

variable {E D σ tagOf void L} {Γ Γ' : Str → Prop} {b b' : List (Str × SlotInfo)} {ρ ρ' : Vars} {rs : List Ref} {A A' : Store P W}

theorem Quiet.refl (n : Slot) (A : Store P W) : Quiet σ L n A A := fun _ _ _ => rfl

theorem Quiet.trans {n n' : Slot} {A B C : Store P W} (h : Quiet σ L n A B) (h' : Quiet σ L n' B C) (hn : n ≤ n') : Quiet σ L n' A C :=
  fun sl h1 h2 => (h' sl h1 h2).trans (h sl h1 (h2.imp_right (Nat.le_trans hn)))

theorem Quiet.to {n n' : Slot} (h : Quiet σ L n A A') (hn : n ≤ n') : Quiet σ L n' A A' := h.trans (.refl n' A') hn

/-- Other variables, other bindings. -/
theorem Scene.to (h : Scene E D σ tagOf void L b Γ' ρ rs A) (hΓ : ∀ y, Γ y → Γ' y) (hρ : ∀ y, Γ y → ρ' y = ρ y)
    (hb : ∀ sym, InView L Γ void sym → lookupBind b' sym = lookupBind b sym) : Scene E D σ tagOf void L b' Γ ρ' rs A := by
  refine ⟨h.situ.change hΓ hρ (fun sym hs => hb sym (.inl hs)) (fun _ _ _ _ => rfl), fun n id sig f hn => ?_, fun v hv => ?_, h.base⟩
  · rw [hb _ (.inr (.inl ⟨n, _, hn, rfl⟩))]
    exact h.hypers n id sig f hn
  · rw [hb _ (.inr (.inr ⟨v, hv, rfl⟩))]
    exact h.body v hv

/-- Another store with the same values of the symbols in use. -/
theorem Scene.change (hs : L.Sound σ) (h : Scene E D σ tagOf void L b Γ ρ rs A)
    (hA : ∀ sym sl, InView L Γ void sym → lookupBind b sym = some sl → (A'.states σ).values sl.id = (A.states σ).values sl.id)
    (hf : ∀ sl, L.fix sl → (A'.states σ).values sl = (A.states σ).values sl) : Scene E D σ tagOf void L b Γ ρ rs A' := by
  refine ⟨h.situ.change (fun _ h => h) (fun _ _ => rfl) (fun _ _ => rfl) (fun sym sl hv => hA sym sl (.inl hv)), fun n id sig f hn => ?_,
    fun v hv => ?_, hs.stable A A' h.base hf⟩
  · obtain ⟨sl, h1, h2⟩ := h.hypers n id sig f hn
    exact ⟨sl, h1, (hA _ sl (.inr (.inl ⟨n, _, hn, rfl⟩)) h1).trans h2⟩
  · obtain ⟨sl, h1, h2⟩ := h.body v hv
    exact ⟨sl, h1, (hA _ sl (.inr (.inr ⟨v, hv, rfl⟩)) h1).trans h2⟩

theorem Scene.setInd (hs : L.Sound σ) (h : Scene E D σ tagOf void L b Γ ρ rs A) (i : Str) : Scene E D σ tagOf void L b Γ ρ rs (A.setInd σ i) :=
  h.change hs (fun _ _ _ _ => Store.setInd_value ..) (fun _ _ => Store.setInd_value ..)

/-- Other values in the world outside. -/
theorem Scene.world (hs : L.Sound σ) (h : Scene E D σ tagOf void L b Γ ρ rs A) (w : W) : Scene E D σ tagOf void L b Γ ρ rs { A with world := w } :=
  h.change hs (fun _ _ _ _ => rfl) (fun _ _ => rfl)

/-- After an assignment. -/
theorem Scene.assigned (hL : L.Sound σ) {c' : Ctx} (h : Scene E D σ tagOf void L b Γ ρ rs A) {v : Str} (hn : ¬ Γ v) (hbv : L.bv ≠ some v)
    {s : SlotInfo} (hg : c'.Good L) (hs : lookupBind c'.binds ('$' :: v) = some s) (hw : Writable L c' s)
    (hsame : ∀ sym, InView L Γ void sym → lookupBind c'.binds sym = lookupBind b sym) {x : Val P} {d : Data} (hx : D.rep x d) :
    Scene E D σ tagOf void L c'.binds (fun y => y = v ∨ Γ y) (ρ.set v d) rs (A.setVar σ s.id x) ∧
    Scene E D σ tagOf void L b Γ ρ rs (A.setVar σ s.id x) ∧ Quiet σ L c'.next A (A.setVar σ s.id x) := by
  have hother : ∀ sym sl, InView L Γ void sym → lookupBind b sym = some sl → ((A.setVar σ s.id x).states σ).values sl.id = (A.states σ).values sl.id := by
    intro sym sl hv hl
    rw [Store.setVar_value, if_neg]
    intro he
    rw [← hsame sym hv] at hl
    have := hg.own _ (lookupBind_mem hl) _ (lookupBind_mem hs) he
    simp only at this
    exact sees_ne hn hbv sym hv this.symm
  have hfix : ∀ sl, L.fix sl → ((A.setVar σ s.id x).states σ).values sl = (A.states σ).values sl := by
    intro sl hf
    rw [Store.setVar_value, if_neg]
    rintro rfl
    exact hw.free hf
  have h2 := h.change hL hother hfix
  have h3 : Scene E D σ tagOf void L c'.binds Γ ρ rs (A.setVar σ s.id x) := h2.to (fun _ h => h) (fun _ _ => rfl) hsame
  refine ⟨⟨⟨fun y hy => ?_, h3.situ.tags⟩, h3.hypers, h3.body, h3.base⟩, h2, fun sl h4 h5 => ?_⟩
  · by_cases hyv : y = v
    · subst hyv
      exact ⟨s, x, d, hs, by rw [Store.setVar_value, if_pos rfl], by simp [Vars.set], hx⟩
    · rcases hy with hy | hy
      · exact absurd hy hyv
      · obtain ⟨sl, w, d', h4, h5, h6, h7⟩ := h3.situ.vars y hy
        exact ⟨sl, w, d', h4, h5, by simp [Vars.set, hyv, h6], h7⟩
  · rw [Store.setVar_value, if_neg]
    rintro rfl
    rcases h5 with h5 | h5
    · exact Nat.lt_irrefl _ (Nat.lt_of_lt_of_le h5 hw.own)
    · exact Nat.lt_irrefl _ (Nat.lt_of_lt_of_le hw.made h5)

end
end Verif
