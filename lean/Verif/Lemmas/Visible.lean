import Verif.Spec.Visible
import Verif.Spec.Made
import Verif.Lemmas.AnalyseNames
import Verif.Lemmas.Context
import Verif.Lemmas.TemplateCtx

/-! What names denote after a statement. -/

set_option linter.unusedSectionVars false

namespace Verif
open Py

section
variable {P I : Type}

/-- The symbols bound in `c'` on top of `c`. -/
def Ctx.added (c c' : Ctx) : List Str := (c'.binds.drop c.binds.length).map Prod.fst

theorem Ctx.added_of {c c' : Ctx} {new : List (Str × SlotInfo)} (h : c'.binds = c.binds ++ new) :
    c.added c' = new.map Prod.fst := by
  unfold Ctx.added; rw [h, List.drop_left]

theorem lookupBind_app (b new : List (Str × SlotInfo)) (y : Str) :
    lookupBind (b ++ new) y = (lookupBind new y).or (lookupBind b y) := by
  induction b with
  | nil => simp [lookupBind]
  | cons p b ih =>
    obtain ⟨k, v⟩ := p
    simp only [List.cons_append, lookupBind, ih]
    cases lookupBind new y <;> simp

theorem Ctx.get_binds {c c' : Ctx} (h : c'.binds = c.binds) (y : Str) : c'.get y = c.get y := by
  unfold Ctx.get; rw [h]

/-- A symbol not bound again denotes the same. -/
theorem Ctx.Step.get_old {c c' : Ctx} (h : c.Step c') {y : Str} (hy : y ∉ c.added c') :
    c'.get y = c.get y := by
  obtain ⟨new, e, _⟩ := h.binds
  rw [Ctx.added_of e] at hy
  unfold Ctx.get
  rw [e, lookupBind_app]
  have : lookupBind new y = none := by
    rw [← Option.not_isSome_iff_eq_none]
    exact fun h => hy ((lookupBind_isSome _ _).1 h)
  rw [this, Option.none_or]

/-- A symbol bound again denotes a variable of the current namespace. -/
theorem Ctx.Step.get_new {c c' : Ctx} (h : c.Step c') {y : Str} (hy : y ∈ c.added c') :
    ∃ i, c'.get y = some i ∧ i.depth = c.regular := by
  obtain ⟨new, e, f⟩ := h.binds
  rw [Ctx.added_of e] at hy
  have hs := (lookupBind_isSome new y).2 hy
  obtain ⟨i, hi⟩ := Option.isSome_iff_exists.1 hs
  refine ⟨i, ?_, (f _ (lookupBind_mem hi)).1⟩
  unfold Ctx.get
  rw [e, lookupBind_app, hi, Option.some_or]

theorem Ctx.get_none_iff (c : Ctx) (y : Str) : c.get y = none ↔ y ∉ c.binds.map Prod.fst := by
  unfold Ctx.get
  rw [← Option.not_isSome_iff_eq_none, lookupBind_isSome]

theorem Ctx.Step.added_trans {c c1 c2 : Ctx} (h : c.Step c1) (h' : c1.Step c2) (y : Str) :
    y ∈ c.added c2 ↔ y ∈ c.added c1 ∨ y ∈ c1.added c2 := by
  obtain ⟨n1, e1, _⟩ := h.binds
  obtain ⟨n2, e2, _⟩ := h'.binds
  rw [Ctx.added_of e1, Ctx.added_of e2, Ctx.added_of (new := n1 ++ n2) (by rw [e2, e1, List.append_assoc]),
    List.map_append, List.mem_append]

/-- The symbol is unknown or a variable of the current namespace. -/
def Ctx.Here (c : Ctx) (y : Str) : Prop := ∀ i, c.get y = some i → i.depth = c.regular

theorem Ctx.Step.here {c c' : Ctx} (h : c.Step c') {y : Str} (hy : c.Here y) : c'.Here y := by
  intro i hi
  rw [h.regular]
  by_cases hn : y ∈ c.added c'
  · obtain ⟨j, hj, hd⟩ := h.get_new hn
    cases hj.symm.trans hi
    exact hd
  · rw [h.get_old hn] at hi
    exact hy i hi

/-- What is known about the symbol `y` after a part of a script: whether it was bound again (`I`: the
part imports it, `D`: the part defines it), and which variable was assigned to. -/
structure Level (y : Str) (I D : Prop) (c c' : Ctx) (S : List (Option Slot)) : Prop where
  step : c.Step c'
  prolog : c'.prolog = false
  ctl : 1 ≤ c.control → ¬ I
  added : y ∈ c.added c' ↔ I ∨ (c.get y = none ∧ D)
  slots : ¬ I → ∀ o ∈ S, ∃ i, c'.get y = some i ∧ o = some i.id

theorem Ctx.added_refl (c : Ctx) : c.added c = [] := by simp [Ctx.added]

theorem Level.nil {y : Str} {c : Ctx} (hp : c.prolog = false) : Level y (y ∈ ([] : List Str)) (y ∈ ([] : List Str)) c c [] :=
  ⟨.refl c, hp, fun _ => by simp, by simp [Ctx.added_refl], by simp⟩

theorem Level.keep {y : Str} {I D : Prop} {c c' : Ctx} {S} (h : Level y I D c c' S) (hI : ¬ I) {i : SlotInfo}
    (hi : c.get y = some i) : c'.get y = some i := by
  rw [h.step.get_old, hi]
  rw [h.added, hi]
  simp [hI]

theorem Level.seq {y : Str} {I1 D1 I2 D2 : Prop} {c c1 c2 : Ctx} {S1 S2} (h1 : Level y I1 D1 c c1 S1)
    (h2 : Level y I2 D2 c1 c2 S2) : Level y (I1 ∨ I2) (D1 ∨ D2) c c2 (S1 ++ S2) := by
  refine ⟨h1.step.trans h2.step, h2.prolog, fun hc h => h.elim (h1.ctl hc) (h2.ctl (h1.step.control ▸ hc)), ?_, ?_⟩
  · rw [h1.step.added_trans h2.step]
    constructor
    · rintro (h | h)
      · rcases h1.added.1 h with h | ⟨h, h'⟩
        · exact .inl (.inl h)
        · exact .inr ⟨h, .inl h'⟩
      · rcases h2.added.1 h with h | ⟨h, h'⟩
        · exact .inl (.inr h)
        · by_cases hn : y ∈ c.added c1
          · rcases h1.added.1 hn with h | ⟨h, _⟩
            · exact .inl (.inl h)
            · exact .inr ⟨h, .inr h'⟩
          · rw [h1.step.get_old hn] at h
            exact .inr ⟨h, .inr h'⟩
    · by_cases hn : y ∈ c.added c1
      · exact fun _ => .inl hn
      · rintro ((h | h) | ⟨h, h' | h'⟩)
        · exact .inl (h1.added.2 (.inl h))
        · exact .inr (h2.added.2 (.inl h))
        · exact .inl (h1.added.2 (.inr ⟨h, h'⟩))
        · exact .inr (h2.added.2 (.inr ⟨by rw [h1.step.get_old hn]; exact h, h'⟩))
  · intro hI o ho
    rcases List.mem_append.1 ho with ho | ho
    · obtain ⟨i, hi, e⟩ := h1.slots (fun h => hI (.inl h)) o ho
      exact ⟨i, h2.keep (fun h => hI (.inr h)) hi, e⟩
    · exact h2.slots (fun h => hI (.inr h)) o ho

theorem Level.seq_mem {y : Str} {I1 D1 I2 D2 : List Str} {c c1 c2 : Ctx} {S1 S2} (h1 : Level y (y ∈ I1) (y ∈ D1) c c1 S1)
    (h2 : Level y (y ∈ I2) (y ∈ D2) c1 c2 S2) : Level y (y ∈ I1 ++ I2) (y ∈ D1 ++ D2) c c2 (S1 ++ S2) := by
  have := h1.seq h2
  rw [← List.mem_append, ← List.mem_append] at this
  exact this

/-- Only the bindings, the counters and the flag matter. -/
theorem Level.of_eq {y : Str} {I D : Prop} {c0 c c' c1 : Ctx} {S} (h : Level y I D c0 c' S) (h0 : c.Step c1)
    (hc : 1 ≤ c.control → 1 ≤ c0.control) (hb0 : c.binds = c0.binds) (hb : c1.binds = c'.binds) (hp : c1.prolog = c'.prolog) :
    Level y I D c c1 S := by
  refine ⟨h0, hp.trans h.prolog, fun hc' => h.ctl (hc hc'), ?_, ?_⟩
  · have := h.added
    unfold Ctx.added Ctx.get at this ⊢
    rw [hb, hb0]; exact this
  · intro hI o ho
    obtain ⟨i, hi, e⟩ := h.slots hI o ho
    exact ⟨i, by rw [Ctx.get_binds hb]; exact hi, e⟩

theorem pushnew_added (c : Ctx) (ps : List (Str × SlotInfo)) (y : Str) :
    ∃ new, (c.pushnew ps).binds = c.binds ++ new ∧
      (y ∈ new.map Prod.fst ↔ c.get y = none ∧ y ∈ ps.map Prod.fst) := by
  induction ps generalizing c with
  | nil => exact ⟨[], by simp [Ctx.pushnew], by simp⟩
  | cons p ps ih =>
    obtain ⟨k, v⟩ := p
    unfold Ctx.pushnew
    split
    · rename_i hk
      obtain ⟨new, e, f⟩ := ih c
      refine ⟨new, e, ?_⟩
      rw [f, List.map_cons, List.mem_cons]
      constructor
      · exact fun h => ⟨h.1, .inr h.2⟩
      · rintro ⟨h, rfl | h'⟩
        · rw [h] at hk; cases hk
        · exact ⟨h, h'⟩
    · rename_i hk
      obtain ⟨new, e, f⟩ := ih (c.push k v)
      refine ⟨(k, v) :: new, by rw [e]; simp [Ctx.push], ?_⟩
      rw [List.map_cons, List.mem_cons, f, List.map_cons, List.mem_cons]
      have hg : (c.push k v).get y = if k = y then some v else c.get y := lookup_push _ _ _ _
      rw [hg]
      by_cases h : k = y
      · subst h
        have hk' : c.get k = none := by simpa using hk
        simp [hk']
      · have h' : ¬ y = k := fun e => h e.symm
        simp [h, h']

theorem lookup_pushnew_none (c : Ctx) (ps : List (Str × SlotInfo)) (y : Str) :
    (c.pushnew ps).get y = (c.get y).or (Dict.get? ps y) := by
  induction ps generalizing c with
  | nil => simp [Ctx.pushnew, Dict.get?]
  | cons p ps ih =>
    obtain ⟨k, v⟩ := p
    unfold Ctx.pushnew
    simp only [Dict.get?]
    have hg : (c.push k v).get y = if k = y then some v else c.get y := lookup_push _ _ _ _
    split
    · rename_i hk
      rw [ih c]
      by_cases h : k = y
      · subst h
        obtain ⟨i, hi⟩ := Option.isSome_iff_exists.1 hk
        simp [hi]
      · simp [h]
    · rename_i hk
      rw [ih, hg]
      by_cases h : k = y
      · subst h
        have hk' : c.get k = none := by simpa using hk
        simp [hk']
      · simp [h]

/-- The end of a control block. -/
theorem Ctx.Step.control_back {c c' : Ctx} {n : Nat} (h : Ctx.Step { c with control := n } c') :
    c.Step { c' with control := c.control } :=
  ⟨h.regular, rfl, h.hypertag, h.next, h.binds⟩

/-- The last binding of a symbol. -/
theorem get?_update_last (d : Dict Str SlotInfo) (l : List (Str × SlotInfo)) (y : Str) :
    Dict.get? (Dict.update d l) y = (lookupBind l y).or (Dict.get? d y) := by
  induction l generalizing d with
  | nil => simp [Dict.update, lookupBind]
  | cons p l ih =>
    obtain ⟨k, v⟩ := p
    simp only [Dict.update, lookupBind, ih, Dict.get?_set]
    cases lookupBind l y with
    | some w => simp
    | none => by_cases h : k = y <;> simp [h]

/-- After a branch a symbol denotes what it did before or, if it was not known, what it did at the end of
the branch. -/
theorem Ctx.get_merge {c c' : Ctx} (h : c.Step c') (y : Str) :
    (c.mergeBranch c').get y = (c.get y).or (c'.get y) := by
  obtain ⟨new, e, _⟩ := h.binds
  unfold Ctx.mergeBranch
  rw [lookup_pushnew_none, get?_update_last]
  simp only [Dict.get?, Option.or_none]
  unfold Ctx.get
  rw [e, List.take_left, List.drop_left, lookupBind_app]
  cases lookupBind c.binds y <;> simp

theorem Ctx.added_merge {c c' : Ctx} (h : c.Step c') (y : Str) :
    y ∈ c.added (c.mergeBranch c') ↔ c.get y = none ∧ y ∈ c.added c' := by
  obtain ⟨new, e, f⟩ := pushnew_added { c' with binds := c'.binds.take c.binds.length }
    (Dict.update [] (c'.binds.drop c.binds.length)) y
  have e' : (c.mergeBranch c').binds = c.binds ++ new := by unfold mergeBranch; rw [e]; simp only [h.take]
  rw [Ctx.added_of e', f, Ctx.keys_update, Ctx.get_binds (c := c) (by exact h.take)]
  simp [Ctx.added]

theorem Level.merge {y : Str} {I D : Prop} {c c' : Ctx} {S} (h : Level y I D c c' S) (hc : 1 ≤ c.control) :
    Level y I D c (c.mergeBranch c') S := by
  have hI := h.ctl hc
  refine ⟨Ctx.merge_step h.step, (Ctx.mergeBranch_prolog _ _).trans h.prolog, h.ctl, ?_, ?_⟩
  · rw [Ctx.added_merge h.step, h.added]
    constructor
    · rintro ⟨_, h⟩; exact h
    · rintro (h | h)
      · exact absurd h hI
      · exact ⟨h.1, .inr h⟩
  · intro _ o ho
    obtain ⟨i, hi, e⟩ := h.slots hI o ho
    refine ⟨i, ?_, e⟩
    rw [Ctx.get_merge h.step]
    cases hg : c.get y with
    | none => simpa using hi
    | some j =>
      have := h.keep hI hg
      cases this.symm.trans hi
      simp

/-! ### Targets -/

theorem declare_binds (c : Ctx) (sym : Str) :
    Post (fun r => r.2.binds = c.binds ++ [(sym, r.1), (sym, r.1)]) (declare c sym : Except (AErr I) (SlotInfo × Ctx)) := by
  unfold declare newSlot
  split
  · exact Post.pure (by simp [Ctx.push])
  · exact .error

theorem newSlot_binds (c : Ctx) (sym : Str) :
    Post (fun r => r.2.binds = c.binds ++ [(sym, r.1)]) (newSlot c sym : Except (AErr I) (SlotInfo × Ctx)) := by
  unfold newSlot
  split
  · exact Post.ok (by simp [Ctx.push])
  · exact .error

theorem writeSlot_level (c : Ctx) (sym y : Str) (hp : c.prolog = false) (hy : c.Here y) :
    Post (fun r => Level y False (y ∈ [sym]) c r.2 (if sym = y then [some r.1.id] else []))
      (writeSlot c sym : Except (AErr I) (SlotInfo × Ctx)) := by
  have hd : sym ≠ y ∨ c.get y = none → Post (fun r => Level y False (y ∈ [sym]) c r.2 (if sym = y then [some r.1.id] else []))
      (declare c sym : Except (AErr I) (SlotInfo × Ctx)) := by
    intro hs
    refine Post.imp (((Ctx.declare_post c sym).and (declare_prolog c sym)).and (declare_binds c sym)) ?_
    rintro ⟨s, c1⟩ ⟨⟨⟨h1, _⟩, h2⟩, h3⟩
    refine ⟨h1, h2.trans hp, fun _ h => h, ?_, ?_⟩
    · rw [Ctx.added_of h3]
      rcases hs with hs | hs
      · have : y ≠ sym := fun e => hs e.symm
        simp [this]
      · simp [hs]
    · intro _ o ho
      split at ho
      · rename_i e
        subst e
        refine ⟨s, ?_, List.mem_singleton.1 ho⟩
        unfold Ctx.get
        rw [h3, lookupBind_app]
        simp [lookupBind]
      · cases ho
  unfold writeSlot
  cases hg : c.get sym with
  | none =>
    refine hd ?_
    by_cases h : sym = y
    · subst h; exact .inr hg
    · exact .inl h
  | some s =>
    dsimp only
    by_cases hr : s.depth = c.regular
    · rw [if_pos hr]
      refine Post.ok ⟨.refl c, hp, fun _ h => h, ?_, ?_⟩
      · rw [Ctx.added_refl]
        constructor
        · intro h; cases h
        · rintro (h | ⟨h, h'⟩)
          · exact h.elim
          · rw [List.mem_singleton.1 h', hg] at h; cases h
      · intro _ o ho
        split at ho
        · rename_i e
          subst e
          exact ⟨s, hg, List.mem_singleton.1 ho⟩
        · cases ho
    · rw [if_neg hr]
      refine hd (.inl ?_)
      rintro rfl
      exact hr (hy s hg)

mutual
theorem analyseTarget_level (y : Str) : ∀ (t : Target) (c : Ctx), c.prolog = false → c.Here y →
    Post (fun r => Level y False (y ∈ t.defines) c r.2 (r.1.slotsOf y)) (analyseTarget t c : Except (AErr I) (Target × Ctx))
  | .var name read _ _, c, hp, hy => by
    simp only [analyseTarget, Target.defines]
    refine Post.bind (Post.any _) (fun o _ => Post.bind (writeSlot_level c _ y hp hy) ?_)
    rintro ⟨w, c1⟩ h
    refine .pure ?_
    simp only [Target.slotsOf]
    exact h
  | .many ts, c, hp, hy => by
    simp only [analyseTarget, Target.defines]
    refine Post.bind (analyseTargets_level y ts c hp hy) ?_
    rintro ⟨ts', c1⟩ h
    exact .pure h
theorem analyseTargets_level (y : Str) : ∀ (ts : List Target) (c : Ctx), c.prolog = false → c.Here y →
    Post (fun r => Level y False (y ∈ Target.definesAll ts) c r.2 (Target.slotsOfAll y r.1)) (analyseTargets ts c : Except (AErr I) (List Target × Ctx))
  | [], c, hp, _ => by
    simp only [analyseTargets, Target.definesAll]
    refine .pure ?_
    have := Level.nil (y := y) hp
    simpa only [List.not_mem_nil, Target.slotsOfAll] using this
  | t :: ts, c, hp, hy => by
    simp only [analyseTargets, Target.definesAll]
    refine Post.bind (analyseTarget_level y t c hp hy) ?_
    rintro ⟨t', c1⟩ h
    refine Post.bind (analyseTargets_level y ts c1 h.prolog (h.step.here hy)) ?_
    rintro ⟨ts', c2⟩ h'
    refine .pure ?_
    have := h.seq h'
    rw [← List.mem_append, or_self] at this
    exact this
end

/-! ### Imports and definitions -/

/-- The symbols bound are those before and then `D`. -/
def Ctx.Names (c c' : Ctx) (D : List Str) : Prop := c'.binds.map Prod.fst = c.binds.map Prod.fst ++ D

theorem Ctx.Names.trans {c c1 c2 : Ctx} {D D' : List Str} (h : c.Names c1 D) (h' : c1.Names c2 D') :
    c.Names c2 (D ++ D') := by
  unfold Ctx.Names at *; rw [h', h, List.append_assoc]

theorem Ctx.Names.added {c c' : Ctx} {D : List Str} (h : c.Names c' D) : c.added c' = D := by
  unfold Ctx.Names at h; unfold Ctx.added
  rw [List.map_drop, h, List.drop_append]
  simp

theorem newSlot_names (c : Ctx) (sym : Str) :
    Post (fun r => c.Names r.2 [sym]) (newSlot c sym : Except (AErr I) (SlotInfo × Ctx)) :=
  (newSlot_binds c sym).imp (fun r h => by unfold Ctx.Names; rw [h]; simp)

theorem valueSlots_names (l : List (Str × Val P)) (c : Ctx) :
    Post (fun r => c.Names r.2 (l.map Prod.fst)) (valueSlots l c : Except (AErr I) _) := by
  induction l generalizing c with
  | nil => exact .pure (by simp [Ctx.Names])
  | cons a l ih =>
    obtain ⟨sym, v⟩ := a
    simp only [valueSlots]
    refine Post.bind (newSlot_names c sym) ?_
    rintro ⟨s, c1⟩ h
    refine Post.bind (ih c1) ?_
    rintro ⟨r, c2⟩ h1
    exact .pure (h.trans h1)

theorem analyseImport_names (src : Source P I) (path : Option Str) (i : ImportItem P) (c : Ctx) :
    Post (fun r => c.Names r.2 (i.defines src path)) (analyseImport src path i c : Except (AErr I) _) := by
  cases i with
  | wild old =>
    simp only [analyseImport]
    refine Post.bind (loadModule_judge src path).post ?_
    rintro ⟨symbols, st⟩ hm
    refine Post.bind (publicSymbols_judge st symbols).post ?_
    rintro pub rfl
    refine Post.bind (valueSlots_names _ c) ?_
    rintro ⟨l, c1⟩ h
    refine .pure ?_
    have : (ImportItem.wild old).defines src path =
        ((symbols.filter (fun x => isPublic x.1)).map (fun x => (x.1, importValue x.1 st x.2))).map
          Prod.fst := by
      simp only [ImportItem.defines, wildNames, hm, List.map_map, List.filter_map]
      rfl
    rw [this]
    exact h
  | name sym ren old =>
    simp only [analyseImport]
    split
    · exact .error
    · refine Post.bind (loadModule_judge src path).post ?_
      rintro ⟨symbols, st⟩ hm
      simp only
      cases Dict.get? symbols sym with
      | none => exact .error
      | some v =>
        refine Post.bind (newSlot_names c _) ?_
        rintro ⟨s, c1⟩ h
        refine .pure ?_
        cases ren <;> exact h
  | cntx sym ren old =>
    simp only [analyseImport]
    cases Dict.get? src.context sym with
    | none => exact .error
    | some v =>
      refine Post.bind (newSlot_names c _) ?_
      rintro ⟨s, c1⟩ h
      refine .pure ?_
      cases ren <;> exact h

theorem analyseImports_names (src : Source P I) (path : Option Str) (is : List (ImportItem P)) (c : Ctx) :
    Post (fun r => c.Names r.2 (is.flatMap (fun i => i.defines src path))) (analyseImports src path is c : Except (AErr I) _) := by
  induction is generalizing c with
  | nil => exact .pure (by simp [Ctx.Names])
  | cons i is ih =>
    simp only [analyseImports]
    refine Post.bind (analyseImport_names src path i c) ?_
    rintro ⟨i', c1⟩ h
    refine Post.bind (ih c1) ?_
    rintro ⟨is', c2⟩ h'
    exact .pure (h.trans h')

variable (src : Source P I)

theorem analyseImports_level (path : Option Str) (items : List (ImportItem P)) (c : Ctx) :
    Post (fun r => c.Step r.2 ∧ r.2.prolog = c.prolog ∧ c.Names r.2 (items.flatMap (fun i => i.defines src path)))
      (analyseImports src path items c : Except (AErr I) _) :=
  (((analyseImports_judge src path items c False).post.and (analyseImports_prolog src path items c)).and
    (analyseImports_names src path items c)).imp (fun _ h => ⟨h.1.1.1, h.1.2.1, h.2⟩)

theorem Level.of_names {y : Str} {D : List Str} {c c' : Ctx} (hs : c.Step c') (hp : c'.prolog = false) (hc : ¬ 1 ≤ c.control)
    (hn : c.Names c' D) : Level y (y ∈ D) (y ∈ D) c c' [] :=
  ⟨hs, hp, fun h => absurd h hc, by rw [hn.added]; exact ⟨.inl, fun h => h.elim id (·.2)⟩, by simp⟩

private theorem no : False → ∀ _ : Option Slot, True := fun _ _ => trivial

theorem Stmt.tails_raw {s : Stmt P} (h : s.tails (fun _ => False)) : s.tails (Raw False) :=
  Stmt.tails_mono (fun _ h => h.elim) s h

mutual
theorem analyse_level (y : Str) : ∀ (s : Stmt P) (c : Ctx), c.WF → s.tails (fun _ => False) → c.prolog = false → c.Here y →
    Post (fun r => Level y (y ∈ s.introduces src) (y ∈ s.defines src) c r.2 (r.1.slotsOf y)) (analyse src s c)
  | .static _, c, _, _, hp, _ => by
    simp only [analyse, Stmt.introduces, Stmt.defines]; exact .pure (.nil hp)
  | .indent _, c, _, _, hp, _ => by
    simp only [analyse, Stmt.introduces, Stmt.defines]; exact .pure (.nil hp)
  | .dedent _, c, _, _, hp, _ => by
    simp only [analyse, Stmt.introduces, Stmt.defines]; exact .pure (.nil hp)
  | .comment, c, _, _, hp, _ => by
    simp only [analyse, Stmt.introduces, Stmt.defines]; exact .pure (.nil hp)
  | .pass, c, _, _, hp, _ => by
    simp only [analyse, Stmt.introduces, Stmt.defines]; exact .pure (.nil hp)
  | .line l, c, _, _, hp, _ => by
    simp only [analyse, Stmt.introduces, Stmt.defines]
    exact Post.bind (Post.any _) (fun _ _ => .pure (.nil hp))
  | .text _ items, c, _, _, hp, _ => by
    simp only [analyse, Stmt.introduces, Stmt.defines]
    exact Post.bind (Post.any _) (fun _ _ => .pure (.nil hp))
  | .embed e, c, _, _, hp, _ => by
    simp only [analyse, Stmt.introduces, Stmt.defines]
    exact Post.bind (Post.any _) (fun _ _ => .pure (.nil hp))
  | .exprBlock e, c, _, _, hp, _ => by
    simp only [analyse, Stmt.introduces, Stmt.defines]
    exact Post.bind (Post.any _) (fun _ _ => .pure (.nil hp))
  | .xblock _ _ b, c, w, t, hp, hy => by
    simp only [analyse, Stmt.introduces, Stmt.defines]
    simp only [Stmt.tails] at t
    have e : leaveProlog b c = c := by
      unfold leaveProlog
      split
      · rfl
      · rfl
      · rw [← hp]
    rw [e]
    refine Post.bind (analyse_level y b c w t hp hy) ?_
    rintro ⟨b', c1⟩ h
    refine .pure ?_
    simp only [Stmt.slotsOf]
    exact h
  | .struct tags b, c, w, t, hp, _ => by
    simp only [analyse, Stmt.introduces, Stmt.defines]
    simp only [Stmt.tails] at t
    have w' : Ctx.WF { c with regular := c.regular + 1 } := fun x hx =>
      ⟨Nat.le_succ_of_le (w x hx).1, (w x hx).2⟩
    refine Post.bind (Post.any _) (fun _ _ => Post.bind
      ((analyse_post src found_any no b { c with regular := c.regular + 1 } w' (Stmt.tails_raw t)).and (analyse_ctx src b _ t)) ?_)
    rintro ⟨b', c1⟩ ⟨⟨h, _⟩, hk⟩
    refine .pure ?_
    have hb := Ctx.leave_binds (c := c) (c1 := { c with regular := c.regular + 1 }) rfl h
    have hs := Ctx.leave_step (c := c) (c1 := { c with regular := c.regular + 1 }) rfl rfl rfl h
    simp only [Stmt.slotsOf]
    exact (Level.nil (y := y) hp).of_eq hs id rfl hb ((hk.1 hp).1.trans hp.symm)
  | .defn id name _ ba as b, c, w, t, hp, hy => by
    simp only [analyse, Stmt.introduces, Stmt.defines]
    simp only [Stmt.tails] at t
    split
    · exact .error
    · rename_i hc
      have w' : Ctx.WF { c with regular := c.regular + 1, hypertag := c.hypertag + 1 } := fun x hx =>
        ⟨Nat.le_succ_of_le (w x hx).1, (w x hx).2⟩
      refine Post.bind (analyseDefaults_judge (fun _ => Iff.rfl) found_any ba.toList).post (fun ba1 hba =>
        Post.bind (analyseDefaults_judge (fun _ => Iff.rfl) found_any as).post (fun as1 has => ?_))
      refine Post.bind ((declareAttrs_judge ba1 hba.1 _).post.and (declareAttrs_prolog ba1 _)) ?_
      rintro ⟨ba2, c2⟩ ⟨⟨b1, _⟩, p1⟩
      refine Post.bind ((declareAttrs_judge as1 has.1 c2).post.and (declareAttrs_prolog as1 _)) ?_
      rintro ⟨as2, c3⟩ ⟨⟨a1, _⟩, p2⟩
      have w3 := a1.wf (b1.wf w')
      refine Post.bind ((analyse_post src found_any no b c3 w3 (Stmt.tails_raw t)).and (analyse_ctx src b _ t)) ?_
      rintro ⟨b', c4⟩ ⟨⟨h, _⟩, hk⟩
      have hb := Ctx.leave_binds (c := c) (c1 := { c with regular := c.regular + 1, hypertag := c.hypertag + 1 }) rfl ((b1.trans a1).trans h)
      have hs := Ctx.leave_step (c := c) (c1 := { c with regular := c.regular + 1, hypertag := c.hypertag + 1 }) rfl rfl rfl ((b1.trans a1).trans h)
      refine Post.bind (((newSlot_judge (c.leave c4) ('%' :: name)).post.and (newSlot_names _ _)).and (newSlot_prolog _ _)) ?_
      rintro ⟨sl, c5⟩ ⟨⟨⟨k1, _⟩, k2⟩, k3⟩
      refine .pure ?_
      simp only [Stmt.slotsOf]
      refine .of_names (hs.trans k1) (k3.trans (hk.1 (p2.trans (p1.trans hp))).1) hc ?_
      unfold Ctx.Names at k2 ⊢
      rw [k2, hb]
  | .imports true path items, c, _, _, hp, _ => by
    simp only [analyse]
    rw [hp]
    exact .error
  | .imports false path items, c, _, _, hp, _ => by
    simp only [analyse, Stmt.introduces, Stmt.defines]
    split
    · exact .error
    · rename_i hc
      refine Post.bind (analyseImports_level src path items c) ?_
      rintro ⟨items', c1⟩ ⟨h1, h2, h3⟩
      exact .pure (.of_names h1 (h2.trans hp) hc h3)
  | .tryBlock bs, c, w, t, hp, hy => by
    simp only [analyse, Stmt.introduces, Stmt.defines]
    simp only [Stmt.tails] at t
    refine Post.bind (analyseBranches_level y bs { c with control := c.control + 1 } w t hp hy (Nat.le_add_left _ _)) ?_
    rintro ⟨bs', c1⟩ h
    refine .pure ?_
    simp only [Stmt.slotsOf]
    exact h.of_eq (Ctx.Step.control_back h.step) (fun _ => Nat.le_add_left _ _) rfl rfl rfl
  | .ifBlock cs els, c, w, t, hp, hy => by
    simp only [analyse, Stmt.introduces, Stmt.defines]
    simp only [Stmt.tails] at t
    refine Post.bind (analyseClauses_level y cs { c with control := c.control + 1 } w t.1 hp hy (Nat.le_add_left _ _)) ?_
    rintro ⟨cs', c1⟩ h
    refine Post.bind (analyseElse_level y els c1 (h.step.wf w) t.2 h.prolog (h.step.here hy)
      (by rw [h.step.control]; exact Nat.le_add_left _ _)) ?_
    rintro ⟨els', c2⟩ h'
    refine .pure ?_
    simp only [Stmt.slotsOf]
    have h := h.seq_mem h'
    exact h.of_eq (Ctx.Step.control_back h.step) (fun _ => Nat.le_add_left _ _) rfl rfl rfl
  | .elseClause b, c, w, t, hp, hy => by
    simp only [analyse, Stmt.introduces, Stmt.defines]
    simp only [Stmt.tails] at t
    refine Post.bind (analyseOpt_level y b c w t hp hy) ?_
    rintro ⟨b', c1⟩ h
    refine .pure ?_
    simp only [Stmt.slotsOf]
    exact h
  | .whileBlock e b els, c, w, t, hp, hy => by
    simp only [analyse, Stmt.introduces, Stmt.defines]
    simp only [Stmt.tails] at t
    refine Post.bind (Post.any _) (fun _ _ => Post.bind
      (analyseOpt_level y b { c with control := c.control + 1 } w t.1 hp hy) ?_)
    rintro ⟨b', c1⟩ h
    have h := h.merge (Nat.le_add_left _ _)
    refine Post.bind (analyseElse_level y els _ (h.step.wf w) t.2 h.prolog (h.step.here hy)
      (by rw [h.step.control]; exact Nat.le_add_left _ _)) ?_
    rintro ⟨els', c2⟩ h'
    refine .pure ?_
    simp only [Stmt.slotsOf]
    have h := h.seq_mem h'
    exact h.of_eq (Ctx.Step.control_back h.step) (fun _ => Nat.le_add_left _ _) rfl rfl rfl
  | .forBlock tg e rest, c, w, t, hp, hy => by
    simp only [analyse, Stmt.introduces, Stmt.defines]
    simp only [Stmt.tails] at t
    refine Post.bind (Post.any _) (fun _ _ => Post.bind
      (analyseTarget_level y tg { c with control := c.control + 1 } hp hy) ?_)
    rintro ⟨tg', c1⟩ h
    refine Post.bind (analyseFirst_level y rest c1 (h.step.wf w) t h.prolog (h.step.here hy)) ?_
    rintro ⟨rest', c2⟩ h'
    refine .pure ?_
    simp only [Stmt.slotsOf]
    have h := h.seq h'
    rw [false_or, ← List.mem_append] at h
    exact h.of_eq (Ctx.Step.control_back h.step) (fun _ => Nat.le_add_left _ _) rfl rfl rfl
  | .assign tg op e, c, w, _, hp, hy => by
    simp only [analyse, Stmt.introduces, Stmt.defines]
    refine Post.bind (Post.any _) (fun _ _ => Post.bind (analyseTarget_level y tg c hp hy) ?_)
    rintro ⟨tg', c1⟩ h
    refine .pure ?_
    simp only [Stmt.slotsOf, List.not_mem_nil]
    exact h
  | .body ss, c, w, t, hp, hy => by
    simp only [analyse, Stmt.introduces, Stmt.defines]
    simp only [Stmt.tails] at t
    refine Post.bind (analyseAll_level y ss c w t hp hy) ?_
    rintro ⟨ss', c1⟩ h
    refine .pure ?_
    simp only [Stmt.slotsOf]
    exact h
theorem analyseAll_level (y : Str) : ∀ (ss : List (Stmt P)) (c : Ctx), c.WF → Stmt.tailsAll (fun _ => False) ss → c.prolog = false → c.Here y →
    Post (fun r => Level y (y ∈ Stmt.introducesAll src ss) (y ∈ Stmt.definesAll src ss) c r.2 (Stmt.slotsOfAll y r.1)) (analyseAll src ss c)
  | [], c, _, _, hp, _ => by
    simp only [analyseAll, Stmt.introducesAll, Stmt.definesAll]; exact .pure (.nil hp)
  | s :: ss, c, w, t, hp, hy => by
    simp only [analyseAll, Stmt.introducesAll, Stmt.definesAll]
    simp only [Stmt.tailsAll] at t
    refine Post.bind (analyse_level y s c w t.1 hp hy) ?_
    rintro ⟨s', c1⟩ h
    refine Post.bind (analyseAll_level y ss c1 (h.step.wf w) t.2 h.prolog (h.step.here hy)) ?_
    rintro ⟨ss', c2⟩ h'
    refine .pure ?_
    simp only [Stmt.slotsOfAll]
    exact h.seq_mem h'
theorem analyseBranches_level (y : Str) : ∀ (ss : List (Stmt P)) (c : Ctx), c.WF → Stmt.tailsAll (fun _ => False) ss → c.prolog = false → c.Here y →
    1 ≤ c.control →
    Post (fun r => Level y (y ∈ Stmt.introducesAll src ss) (y ∈ Stmt.definesAll src ss) c r.2 (Stmt.slotsOfAll y r.1)) (analyseBranches src ss c)
  | [], c, _, _, hp, _, _ => by
    simp only [analyseBranches, Stmt.introducesAll, Stmt.definesAll]; exact .pure (.nil hp)
  | s :: ss, c, w, t, hp, hy, hc => by
    simp only [analyseBranches, Stmt.introducesAll, Stmt.definesAll]
    simp only [Stmt.tailsAll] at t
    refine Post.bind (analyse_level y s c w t.1 hp hy) ?_
    rintro ⟨s', c1⟩ h
    have h := h.merge hc
    refine Post.bind (analyseBranches_level y ss _ (h.step.wf w) t.2 h.prolog (h.step.here hy) (by rw [h.step.control]; exact hc)) ?_
    rintro ⟨ss', c2⟩ h'
    refine .pure ?_
    simp only [Stmt.slotsOfAll]
    exact h.seq_mem h'
theorem analyseClauses_level (y : Str) : ∀ (cs : List (Expr × Option (Stmt P))) (c : Ctx), c.WF → Stmt.tailsClauses (fun _ => False) cs → c.prolog = false →
    c.Here y → 1 ≤ c.control →
    Post (fun r => Level y (y ∈ Stmt.introducesClauses src cs) (y ∈ Stmt.definesClauses src cs) c r.2 (Stmt.slotsOfClauses y r.1)) (analyseClauses src cs c)
  | [], c, _, _, hp, _, _ => by
    simp only [analyseClauses, Stmt.introducesClauses, Stmt.definesClauses]; exact .pure (.nil hp)
  | cl :: cs, c, w, t, hp, hy, hc => by
    simp only [analyseClauses, Stmt.introducesClauses, Stmt.definesClauses]
    simp only [Stmt.tailsClauses] at t
    refine Post.bind (analyseClause_level y cl c w t.1 hp hy) ?_
    rintro ⟨s', c1⟩ h
    have h := h.merge hc
    refine Post.bind (analyseClauses_level y cs _ (h.step.wf w) t.2 h.prolog (h.step.here hy) (by rw [h.step.control]; exact hc)) ?_
    rintro ⟨ss', c2⟩ h'
    refine .pure ?_
    simp only [Stmt.slotsOfClauses]
    exact h.seq_mem h'
theorem analyseClause_level (y : Str) : ∀ (cl : Expr × Option (Stmt P)) (c : Ctx), c.WF → Stmt.tailsClause (fun _ => False) cl → c.prolog = false → c.Here y →
    Post (fun r => Level y (y ∈ Stmt.introducesClause src cl) (y ∈ Stmt.definesClause src cl) c r.2 (Stmt.slotsOfClause y r.1)) (analyseClause src cl c)
  | (e, b), c, w, t, hp, hy => by
    simp only [analyseClause, Stmt.introducesClause, Stmt.definesClause]
    simp only [Stmt.tailsClause] at t
    refine Post.bind (Post.any _) (fun _ _ => Post.bind (analyseOpt_level y b c w t hp hy) ?_)
    rintro ⟨b', c1⟩ h
    refine .pure ?_
    simp only [Stmt.slotsOfClause]
    exact h
theorem analyseElse_level (y : Str) : ∀ (s : Option (Stmt P)) (c : Ctx), c.WF → Stmt.tailsOpt (fun _ => False) s → c.prolog = false → c.Here y →
    1 ≤ c.control →
    Post (fun r => Level y (y ∈ Stmt.introducesOpt src s) (y ∈ Stmt.definesOpt src s) c r.2 (Stmt.slotsOfOpt y r.1)) (analyseElse src s c)
  | .none, c, _, _, hp, _, _ => by
    simp only [analyseElse, Stmt.introducesOpt, Stmt.definesOpt]; exact .pure (.nil hp)
  | some s, c, w, t, hp, hy, hc => by
    simp only [analyseElse, Stmt.introducesOpt, Stmt.definesOpt]
    simp only [Stmt.tailsOpt] at t
    refine Post.bind (analyse_level y s c w t hp hy) ?_
    rintro ⟨s', c1⟩ h
    refine .pure ?_
    simp only [Stmt.slotsOfOpt]
    exact h.merge hc
theorem analyseOpt_level (y : Str) : ∀ (s : Option (Stmt P)) (c : Ctx), c.WF → Stmt.tailsOpt (fun _ => False) s → c.prolog = false → c.Here y →
    Post (fun r => Level y (y ∈ Stmt.introducesOpt src s) (y ∈ Stmt.definesOpt src s) c r.2 (Stmt.slotsOfOpt y r.1)) (analyseOpt src s c)
  | .none, c, _, _, hp, _ => by
    simp only [analyseOpt, Stmt.introducesOpt, Stmt.definesOpt]; exact .pure (.nil hp)
  | some s, c, w, t, hp, hy => by
    simp only [analyseOpt, Stmt.introducesOpt, Stmt.definesOpt]
    simp only [Stmt.tailsOpt] at t
    refine Post.bind (analyse_level y s c w t hp hy) ?_
    rintro ⟨s', c1⟩ h
    refine .pure ?_
    simp only [Stmt.slotsOfOpt]
    exact h
theorem analyseFirst_level (y : Str) : ∀ (ss : List (Stmt P)) (c : Ctx), c.WF → Stmt.tailsFirst (fun _ => False) ss → c.prolog = false → c.Here y →
    Post (fun r => Level y (y ∈ Stmt.introducesAll src ss) (y ∈ Stmt.definesAll src ss) c r.2 (Stmt.slotsOfAll y r.1)) (analyseFirst src ss c)
  | [], c, _, _, hp, _ => by
    simp only [analyseFirst, Stmt.introducesAll, Stmt.definesAll]; exact .pure (.nil hp)
  | s :: s2 :: ss, c, w, t, hp, hy => by
    simp only [Stmt.tailsFirst] at t
    exact (t.2 s2 (List.mem_cons_self ..)).elim
  | [s], c, w, t, hp, hy => by
    simp only [analyseFirst, Stmt.introducesAll, Stmt.definesAll, List.append_nil]
    simp only [Stmt.tailsFirst] at t
    refine Post.bind (analyse_level y s c w t.1 hp hy) ?_
    rintro ⟨s', c1⟩ h
    refine .pure ?_
    simp only [Stmt.slotsOfAll, List.append_nil]
    exact h
end

/-! ### The blocks of a document -/

/-- The prolog of a script does not matter. -/
def Ctx.started (c : Ctx) : Ctx := { c with prolog := false }

theorem Level.shift {y : Str} {I D : Prop} {c c' : Ctx} {S} (h : Level y I D c.started c' S) : Level y I D c c' S :=
  h.of_eq ⟨h.step.regular, h.step.control, h.step.hypertag, h.step.next, h.step.binds⟩ id rfl rfl rfl

theorem Level.unshift {y : Str} {I D : Prop} {c c' : Ctx} {S} (h : Level y I D c c' S) : Level y I D c.started c' S :=
  h.of_eq ⟨h.step.regular, h.step.control, h.step.hypertag, h.step.next, h.step.binds⟩ id rfl rfl rfl

theorem Level.start {y : Str} {I D : Prop} {c c' : Ctx} {S} (h : Level y I D c c' S) : Level y I D c c'.started S :=
  h.of_eq ⟨h.step.regular, h.step.control, h.step.hypertag, h.step.next, h.step.binds⟩ id rfl rfl h.prolog.symm

theorem Ctx.started_wf {c : Ctx} (h : c.WF) : c.started.WF := h

theorem block_level (y : Str) (s : Stmt P) (hs : s.role = .piece ∨ s.role = .block) (c : Ctx) (w : c.WF) (t : s.tails (fun _ => False))
    (hc : c.control = 0) (hy : c.Here y) :
    Post (fun r => Level y (y ∈ s.introduces src) (y ∈ s.defines src) c r.2.started (r.1.slotsOf y)) (analyse src s c) := by
  cases s with
  | xblock m mo b =>
    simp only [Stmt.introduces, Stmt.defines]
    simp only [Stmt.tails] at t
    have e : analyse src (.xblock m mo b) c =
        (analyse src b (leaveProlog b c) >>= fun r => Pure.pure (Stmt.xblock m mo r.1, r.2)) := by
      simp only [analyse]
    rw [e]
    suffices h : Post (fun r => Level y (y ∈ b.introduces src) (y ∈ b.defines src) c r.2.started (r.1.slotsOf y))
        (analyse src b (leaveProlog b c)) by
      refine Post.bind h ?_
      rintro ⟨b', c1⟩ h
      refine .pure ?_
      simp only [Stmt.slotsOf]
      exact h
    have main : Post (fun r => Level y (y ∈ b.introduces src) (y ∈ b.defines src) c r.2.started (r.1.slotsOf y))
        (analyse src b c.started) :=
      (analyse_level src y b c.started w t rfl hy).imp (fun r h => h.shift.start)
    cases b with
    | comment =>
      simp only [leaveProlog, analyse, Stmt.introduces, Stmt.defines]
      exact Post.pure (Level.nil (c := c.started) rfl).shift
    | imports cx path items =>
      cases cx with
      | false => exact main
      | true =>
        show Post _ (analyse src (.imports true path items) c)
        simp only [analyse, Stmt.introduces, Stmt.defines]
        by_cases hp : c.prolog = true
        · simp only [hp, if_true]
          refine Post.bind (analyseImports_level src path items c) ?_
          rintro ⟨items', c1⟩ ⟨h1, h2, h3⟩
          refine .pure ?_
          simp only [Stmt.slotsOf]
          exact (Level.of_names (D := items.flatMap (fun i => i.defines src path)) (c' := c1.started) (y := y)
            ⟨h1.regular, h1.control, h1.hypertag, h1.next, h1.binds⟩ rfl (by rw [hc]; exact Nat.not_succ_le_zero 0) (by unfold Ctx.Names at h3 ⊢; exact h3))
        · simp only [hp]
          exact .error
    | _ => exact main
  | static => simp only [analyse, Stmt.introduces, Stmt.defines]; exact Post.pure (Level.nil (c := c.started) rfl).shift
  | indent => simp only [analyse, Stmt.introduces, Stmt.defines]; exact Post.pure (Level.nil (c := c.started) rfl).shift
  | dedent => simp only [analyse, Stmt.introduces, Stmt.defines]; exact Post.pure (Level.nil (c := c.started) rfl).shift
  | line =>
    simp only [analyse, Stmt.introduces, Stmt.defines]
    exact Post.bind (Post.any _) (fun _ _ => Post.pure (Level.nil (c := c.started) rfl).shift)
  | _ => simp [Stmt.role] at hs

theorem blocks_level (y : Str) (ss : List (Stmt P)) (hs : ∀ s ∈ ss, s.role = .piece ∨ s.role = .block) (c : Ctx) (w : c.WF)
    (t : ∀ s ∈ ss, s.noForElse) (hc : c.control = 0) (hy : c.Here y) :
    Post (fun r => Level y (y ∈ Stmt.introducesAll src ss) (y ∈ Stmt.definesAll src ss) c r.2.started (Stmt.slotsOfAll y r.1))
      (analyseAll src ss c) := by
  induction ss generalizing c with
  | nil =>
    simp only [analyseAll, Stmt.introducesAll, Stmt.definesAll]
    exact .pure (Level.nil (c := c.started) rfl).shift
  | cons s ss ih =>
    simp only [analyseAll, Stmt.introducesAll, Stmt.definesAll]
    refine Post.bind (block_level src y s (hs s (List.mem_cons_self ..)) c w (t s (List.mem_cons_self ..)) hc hy) ?_
    rintro ⟨s', c1⟩ h
    have hst : c.Step c1 := ⟨h.step.regular, h.step.control, h.step.hypertag, h.step.next, h.step.binds⟩
    refine Post.bind (ih (fun s hs' => hs s (List.mem_cons_of_mem _ hs')) c1 (hst.wf w)
      (fun s hs' => t s (List.mem_cons_of_mem _ hs')) (hst.control.trans hc) (hst.here hy)) ?_
    rintro ⟨ss', c2⟩ h'
    refine .pure ?_
    simp only [Stmt.slotsOfAll]
    exact h.seq_mem h'.unshift

end
end Verif
