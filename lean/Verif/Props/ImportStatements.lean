import Verif.Props.Imports

/-! Whole import statements and context blocks: C59, C60, C75. -/

namespace Verif
open Py

section
variable {P X W I : Type}

/-- What an item of an import statement or context block asks for: `AsksFor src path item sym w` says that
the symbol `sym` of the script, with its mark, shall have the value `w`. -/
inductive AsksFor (src : Source P I) (path : Option Str) : ImportItem P → Str → Val P → Prop
  /-- `$name` or `%name`, possibly `as ren` -/
  | name (mark name ren sl table st v w) : src.modules path = .ok (table, st) →
    Dict.get? table (mark :: name) = some v → Seen st (mark :: name) v w →
    AsksFor src path (.name (mark :: name) ren sl) (mark :: ren.getD name) w
  /-- `*` -/
  | wild (old sym table st v w) : src.modules path = .ok (table, st) →
    Dict.get? table sym = some v → PublicSymbol sym → Seen st sym v w → AsksFor src path (.wild old) sym w
  /-- `$name` or `%name` of a context block, possibly `as ren` -/
  | cntx (mark name ren sl v) : Dict.get? src.context (mark :: name) = some v →
    AsksFor src path (.cntx (mark :: name) ren sl) (mark :: ren.getD name) v

theorem seen_eq {st : StateId} {sym : Str} {v w : Val P} (h : Seen st sym v w) :
    w = importValue sym st v := by
  cases h with
  | tag h rest e => subst e; rfl
  | other _ hv =>
    cases v with
    | hyper h =>
      simp only [importValue]
      split
      · next e =>
        cases sym with
        | nil => cases e
        | cons a r => cases e; exact absurd ⟨rfl, rfl⟩ (hv r h)
      · rfl
    | _ => rfl

theorem AsksFor.target {src : Source P I} {path : Option Str} {sym : Str} {ren : Option Str}
    {sl : Option (Slot × Val P)} {t : Str} {w : Val P} (h : AsksFor src path (.name sym ren sl) t w) :
    t = sym.take 1 ++ ren.getD (sym.drop 1) := by
  cases h; rfl

/-- The modules have every symbol once: they are Python dicts. -/
def TablesGood (src : Source P I) : Prop :=
  ∀ path table st, src.modules path = .ok (table, st) → (Dict.keys table).Nodup

/-- The symbols have a mark, as the grammar makes sure. -/
def ImportItem.marked : ImportItem P → Prop
  | .wild _ => True
  | .name sym _ _ => sym ≠ []
  | .cntx sym _ _ => sym ≠ []

theorem slot_effect (σ : StateId) (sym : Str) (w : Val P) (c : Ctx) (M : Machine P W) :
    ∃ M', setSlot (X := X) σ c.next w M = (.ok (), M') ∧
      (∃ info, Ctx.get { c.push sym ⟨c.next, c.regular⟩ with next := c.next + 1 } sym = some info ∧
        info.id < c.next + 1 ∧ (M'.states σ).values info.id = some w) ∧
      (∀ n, n ≠ sym → Ctx.get { c.push sym ⟨c.next, c.regular⟩ with next := c.next + 1 } n = c.get n) ∧
      (∀ s, s < c.next → (M'.states σ).values s = (M.states σ).values s) ∧ M'.mem = M.mem := by
  refine ⟨_, rfl, ⟨⟨c.next, c.regular⟩, ?_, Nat.lt_succ_self _, ?_⟩, ?_, ?_, rfl⟩
  · simp [Ctx.get, Ctx.push, lookupBind_append, lookupBind]
  · simp [Machine.updState]
  · intro n hne
    simp [Ctx.get, Ctx.push, lookupBind_append, lookupBind, Ne.symm hne]
  · intro s hs
    have : s ≠ c.next := Nat.ne_of_lt hs
    simp [Machine.updState, this]

/-- The effect of a single item, with the slots it uses. -/
theorem item_effect (src : Source P I) (hk : TablesGood src) (σ : StateId) (path : Option Str)
    (i i' : ImportItem P) (hi : i.marked) (c c' : Ctx) (h : analyseImport src path i c = .ok (i', c'))
    (M : Machine P W) :
    ∃ M', translImport (X := X) σ i' M = (.ok (), M') ∧
      (∀ sym w, AsksFor src path i sym w →
        ∃ info, c'.get sym = some info ∧ info.id < c'.next ∧ (M'.states σ).values info.id = some w) ∧
      (∀ sym, (∀ w, ¬ AsksFor src path i sym w) → c'.get sym = c.get sym) ∧
      (∀ s, s < c.next → (M'.states σ).values s = (M.states σ).values s) ∧ c.next ≤ c'.next ∧
      M'.mem = M.mem := by
  cases i with
  | wild old =>
    have h0 := h
    simp only [analyseImport] at h0
    obtain ⟨⟨table, st⟩, h1, -⟩ := ok_bind h0
    have hm := (loadModule_judge src path).post _ h1
    obtain ⟨M', e1, e2, e3, e4, e5⟩ := wild_effect (X := X) src σ path table st hm (hk _ _ _ hm) old c c' i' h M
    refine ⟨M', e1, fun sym w hg => ?_, fun sym hg => e3 sym fun v hv hp => ?_, e4, e5⟩
    · cases hg with
      | wild _ _ table' st' v _ hm' hv hp hw =>
        rw [hm] at hm'
        cases hm'
        obtain ⟨w', hw', r⟩ := e2 sym v hv hp
        rw [seen_eq hw, ← seen_eq hw']
        exact r
    · exact hg _ (.wild old sym table st v _ hm hv hp (importValue_seen st sym v))
  | name sym ren sl =>
    match sym, hi with
    | mark :: name, _ =>
      simp only [analyseImport] at h
      split at h
      · cases h
      obtain ⟨⟨table, st⟩, h1, h⟩ := ok_bind h
      have hm : src.modules path = .ok (table, st) := (loadModule_judge src path).post _ h1
      simp only at h
      cases hv : Dict.get? table (mark :: name) with
      | none => rw [hv] at h; cases h
      | some v =>
        rw [hv] at h
        simp only [renamed_eq] at h
        obtain ⟨⟨s, c1⟩, h2, h⟩ := ok_bind h
        unfold newSlot at h2
        split at h2
        · cases h2
          cases h
          obtain ⟨M', e1, e2, e3, e4, e5⟩ := slot_effect (X := X) σ (mark :: ren.getD name)
            (importValue (mark :: name) st v) c M
          refine ⟨M', e1, fun sym w hg => ?_, fun sym hg => e3 sym ?_, e4, Nat.le_succ _, e5⟩
          · cases hg with
            | name _ _ _ _ table' st' v' _ hm' hv' hw =>
              rw [hm] at hm'
              cases hm'
              rw [hv] at hv'
              cases hv'
              rw [seen_eq hw]
              exact e2
          · rintro rfl
            exact hg _ (.name mark name ren sl table st v _ hm hv (importValue_seen _ _ _))
        · cases h2
  | cntx sym ren sl =>
    match sym, hi with
    | mark :: name, _ =>
      simp only [analyseImport] at h
      cases hv : Dict.get? src.context (mark :: name) with
      | none => rw [hv] at h; cases h
      | some v =>
        rw [hv] at h
        simp only [renamed_eq] at h
        obtain ⟨⟨s, c1⟩, h2, h⟩ := ok_bind h
        unfold newSlot at h2
        split at h2
        · cases h2
          cases h
          obtain ⟨M', e1, e2, e3, e4, e5⟩ := slot_effect (X := X) σ (mark :: ren.getD name) v c M
          refine ⟨M', e1, fun sym w hg => ?_, fun sym hg => e3 sym ?_, e4, Nat.le_succ _, e5⟩
          · cases hg with
            | cntx _ _ _ _ v' hv' =>
              rw [hv] at hv'
              cases hv'
              exact e2
          · rintro rfl
            exact hg _ (.cntx mark name ren sl v hv)
        · cases h2

/-- The effect of a list of items. -/
theorem items_effect (src : Source P I) (hk : TablesGood src) (σ : StateId) (path : Option Str)
    (items items' : List (ImportItem P)) (hi : ∀ i ∈ items, i.marked) (c c' : Ctx)
    (h : analyseImports src path items c = .ok (items', c')) (M : Machine P W) :
    ∃ M', translImports (X := X) σ items' M = (.ok (), M') ∧
      (∀ pre i post sym w, items = pre ++ i :: post → AsksFor src path i sym w →
        (∀ j ∈ post, ∀ w', ¬ AsksFor src path j sym w') →
        ∃ info, c'.get sym = some info ∧ info.id < c'.next ∧ (M'.states σ).values info.id = some w) ∧
      (∀ sym, (∀ i ∈ items, ∀ w, ¬ AsksFor src path i sym w) → c'.get sym = c.get sym) ∧
      (∀ s, s < c.next → (M'.states σ).values s = (M.states σ).values s) ∧ c.next ≤ c'.next ∧
      M'.mem = M.mem := by
  induction items generalizing items' c M with
  | nil =>
    cases h
    refine ⟨M, rfl, ?_, fun _ _ => rfl, fun _ _ => rfl, Nat.le_refl _, rfl⟩
    intro pre i post sym w e
    cases pre <;> cases e
  | cons a items ih =>
    simp only [analyseImports] at h
    obtain ⟨⟨a', c1⟩, h1, h⟩ := ok_bind h
    obtain ⟨⟨rest, c2⟩, h2, h⟩ := ok_bind h
    cases h
    obtain ⟨M1, e1, e2, e3, e4, e5, e6⟩ := item_effect (X := X) src hk σ path a a' (hi a (by simp)) c c1 h1 M
    obtain ⟨M2, f1, f2, f3, f4, f5, f6⟩ := ih rest (fun i hm => hi i (by simp [hm])) c1 h2 M1
    refine ⟨M2, ?_, ?_, ?_, fun s hs => ?_, Nat.le_trans e5 f5, f6.trans e6⟩
    · simp only [translImports]
      rw [Comp.bind_run, e1]
      exact f1
    · intro pre i post sym w e hg hp
      cases pre with
      | nil =>
        cases e
        obtain ⟨info, g1, g2, g3⟩ := e2 sym w hg
        exact ⟨info, (f3 sym hp).trans g1, Nat.lt_of_lt_of_le g2 f5, (f4 _ g2).trans g3⟩
      | cons b pre =>
        cases e
        exact f2 pre i post sym w rfl hg hp
    · intro sym hs
      rw [f3 sym fun i hm => hs i (by simp [hm]), e3 sym (hs a (by simp))]
    · rw [f4 s (Nat.lt_of_lt_of_le hs e5), e4 s hs]

/-- C75 (and C59, C60 for whole statements). After an import statement or a context block with any number
of items every symbol asked for has the value of the last item that asks for it; all other symbols mean
what they meant before, and no variable that existed before changes. The statement contributes no
nodes and cannot fail when it is executed. -/
theorem C75_statement (E : Env P X W) (src : Source P I) (hk : TablesGood src) (σ : StateId)
    (context : Bool) (path : Option Str) (items : List (ImportItem P)) (hi : ∀ i ∈ items, i.marked)
    (c c' : Ctx) (s' : Stmt P) (h : analyse src (.imports context path items) c = .ok (s', c'))
    (M : Machine P W) :
    ∃ M', transl E σ s' M = (.ok (some []), M') ∧
      (∀ pre i post sym w, items = pre ++ i :: post → AsksFor src path i sym w →
        (∀ j ∈ post, ∀ w', ¬ AsksFor src path j sym w') → BoundTo c' σ M' sym w) ∧
      (∀ sym, (∀ i ∈ items, ∀ w, ¬ AsksFor src path i sym w) → c'.get sym = c.get sym) ∧
      (∀ s, s < c.next → (M'.states σ).values s = (M.states σ).values s) ∧ M'.mem = M.mem := by
  have key : ∃ items', analyseImports src path items c = .ok (items', c') ∧
      s' = .imports context path items' := by
    cases context with
    | true =>
      simp only [analyse] at h
      split at h
      · obtain ⟨⟨items', c1⟩, h1, h⟩ := ok_bind h
        cases h
        exact ⟨items', h1, rfl⟩
      · cases h
    | false =>
      simp only [analyse] at h
      split at h
      · cases h
      · obtain ⟨⟨items', c1⟩, h1, h⟩ := ok_bind h
        cases h
        exact ⟨items', h1, rfl⟩
  obtain ⟨items', h1, rfl⟩ := key
  obtain ⟨M', e1, e2, e3, e4, -, e5⟩ := items_effect (X := X) src hk σ path items items' hi c c' h1 M
  refine ⟨M', ?_, fun pre i post sym w e hg hp => ?_, e3, e4, e5⟩
  · simp only [transl]
    rw [Comp.bind_run, e1]
    rfl
  · obtain ⟨info, g1, -, g3⟩ := e2 pre i post sym w e hg hp
    exact ⟨info, g1, g3⟩

end

namespace Toy

/-- `from m import $a, %T as U, $_b as a`: `a` is finally the value of `_b`. -/
def severalItems : List (ImportItem Obj) :=
  [.name (s!!"$a") none none, .name (s!!"%T") (some (s!!"U")) none, .name (s!!"$_b") (some (s!!"a")) none]

example : TablesGood wildSource := by
  intro path table st h
  cases h
  decide

example : (analyseImports wildSource (some (s!!"m")) severalItems { next := 5 }).map
    (fun r => (r.2.get (s!!"$a"), r.2.get (s!!"%U"), r.2.get (s!!"%T"))) =
    .ok (some ⟨7, 0⟩, some ⟨6, 0⟩, none) := rfl

/-- The last item asks for `a`, and nothing asks for `_b`. -/
example : AsksFor wildSource (some (s!!"m")) (.name (s!!"$_b") (some (s!!"a")) none) (s!!"$a") (num 2) ∧
    ∀ i ∈ severalItems, ∀ w, ¬ AsksFor wildSource (some (s!!"m")) i (s!!"$_b") w := by
  refine ⟨.name _ _ _ _ _ _ _ _ rfl rfl (.other _ (by rintro r h ⟨e, -⟩; cases e)), ?_⟩
  intro i hi w h
  simp only [severalItems, List.mem_cons, List.not_mem_nil, or_false] at hi
  rcases hi with rfl | rfl | rfl <;> cases h.target

end Toy

end Verif
