import Verif.Lemmas.DomTree

/-! Proofs about selection in DOM trees. -/

namespace Verif
open Py

section
variable {V D : Type} (ne : V → V → Bool)

theorem Dict.mem_iff_get? {K W : Type} [DecidableEq K] {d : Dict K W} (h : (Dict.keys d).Nodup)
    (k : K) (v : W) : (k, v) ∈ d ↔ Dict.get? d k = some v := by
  induction d with
  | nil => simp [Dict.get?]
  | cons e d ih =>
    obtain ⟨a, b⟩ := e
    simp only [Dict.keys, List.map_cons, List.nodup_cons] at h
    have ih := ih h.2
    simp only [List.mem_cons, Prod.mk.injEq, Dict.get?]
    by_cases hak : a = k
    · subst hak
      simp only [if_true, Option.some.injEq]
      constructor
      · rintro (⟨_, rfl⟩ | hm)
        · rfl
        · exact absurd (List.mem_map_of_mem (f := Prod.fst) hm) h.1
      · intro hb
        exact Or.inl ⟨trivial, hb.symm⟩
    · rw [if_neg hak, ← ih]
      constructor
      · rintro (⟨rfl, _⟩ | hm)
        · exact absurd rfl hak
        · exact hm
      · exact Or.inr

theorem mem_constraint_attrs (tag : TagArg) (attr : Option (Str × Option V))
    (attrs : Dict Str (Option V)) (hn : (Dict.keys attrs).Nodup) (a : Str) (v : Option V) :
    (a, v) ∈ (constraint tag attr attrs).attrs ↔ Required attr attrs a v := by
  have key : (constraint tag attr attrs).attrs =
      (match attr with
        | some (a, v) => attrs.set a v
        | none => attrs) := by
    unfold constraint
    cases tag with
    | none => rfl
    | name s => simp only; split <;> rfl
    | obj id => rfl
  rw [key]
  unfold Required
  cases attr with
  | none => exact Dict.mem_iff_get? hn a v
  | some p =>
    obtain ⟨a', v'⟩ := p
    simp only
    rw [Dict.mem_iff_get? (Dict.nodup_set hn a' v'), Dict.get?_set]
    by_cases h : a' = a
    · subst h
      simp [eq_comm]
    · rw [if_neg h]
      have h' : ¬ a = a' := fun e => h e.symm
      simp [h']

/-- Condition on one required attribute. -/
def AttrOk (kw : Dict Str V) (a : Str) (v : Option V) : Prop :=
  ∃ w, kw.get? a = some w ∧ ∀ x, v = some x → ne w x = false

theorem testAttrs_some (kw : Dict Str V) (as : Dict Str (Option V)) :
    ∃ b, testAttrs ne (some kw) as = .ok b ∧
      (b = true ↔ ∀ a v, (a, v) ∈ as → AttrOk ne kw a v) := by
  induction as with
  | nil => exact ⟨true, rfl, by simp⟩
  | cons e as ih =>
    obtain ⟨a, v⟩ := e
    obtain ⟨b, hb, hiff⟩ := ih
    simp only [testAttrs]
    have step : ∀ (P : Prop), (∀ a' v', (a', v') ∈ (a, v) :: as → AttrOk ne kw a' v') ↔
        (AttrOk ne kw a v ∧ ∀ a' v', (a', v') ∈ as → AttrOk ne kw a' v') := by
      intro _
      constructor
      · intro h
        exact ⟨h a v (by simp), fun a' v' hm => h a' v' (by simp [hm])⟩
      · rintro ⟨h1, h2⟩ a' v' hm
        simp only [List.mem_cons, Prod.mk.injEq] at hm
        rcases hm with ⟨rfl, rfl⟩ | hm
        · exact h1
        · exact h2 _ _ hm
    rw [step True]
    cases hg : kw.get? a with
    | none =>
      refine ⟨false, rfl, ?_⟩
      simp only [Bool.false_eq_true, false_iff]
      rintro ⟨⟨w, hw, _⟩, _⟩
      rw [hg] at hw
      simp at hw
    | some w =>
      cases v with
      | none =>
        refine ⟨b, hb, ?_⟩
        rw [hiff]
        constructor
        · intro h
          exact ⟨⟨w, hg, by simp⟩, h⟩
        · exact fun h => h.2
      | some v =>
        simp only
        by_cases hne : ne w v = true
        · refine ⟨false, by simp [hne], ?_⟩
          simp only [Bool.false_eq_true, false_iff]
          rintro ⟨⟨w', hw, hv⟩, _⟩
          rw [hg] at hw
          cases hw
          rw [hv v rfl] at hne
          simp at hne
        · refine ⟨b, by simp [hne, hb], ?_⟩
          rw [hiff]
          constructor
          · intro h
            refine ⟨⟨w, hg, ?_⟩, h⟩
            intro x hx
            cases hx
            simpa using hne
          · exact fun h => h.2

theorem testAttrs_none (as : Dict Str (Option V)) :
    testAttrs ne none as = if as = [] then .ok true else .error .type := by
  cases as <;> simp [testAttrs]

variable (tag : TagArg) (attr : Option (Str × Option V)) (attrs : Dict Str (Option V))

theorem testNode_tag (i : SelInfo V D) :
    testNode ne (constraint tag attr attrs) i = .ok false ∧ ¬ TagOk tag i ∨
    testNode ne (constraint tag attr attrs) i =
      testAttrs ne i.kwattrs (constraint tag attr attrs).attrs ∧ TagOk tag i := by
  unfold testNode
  cases tag with
  | none => right; simp [constraint, TagOk]
  | name s =>
    by_cases hs : s = []
    · left
      subst hs
      cases ht : i.tag <;> simp [constraint, TagOk, tagDiffers, nameDiffers, tagDiffers]
    · cases ht : i.tag with
      | none => left; simp [constraint, TagOk, tagDiffers, nameDiffers, hs, ht]
      | some p =>
        obtain ⟨id, n⟩ := p
        by_cases hn : s = n
        · right; subst hn; simp [constraint, TagOk, tagDiffers, nameDiffers, hs, ht]
        · left
          have : ¬ n = s := fun e => hn e.symm
          simp [constraint, TagOk, tagDiffers, nameDiffers, hs, ht, hn, this]
  | obj id =>
    cases ht : i.tag with
    | none => left; simp [constraint, TagOk, tagDiffers, nameDiffers, ht]
    | some p =>
      obtain ⟨id', n⟩ := p
      by_cases hn : id = id'
      · right; subst hn; simp [constraint, TagOk, tagDiffers, nameDiffers, ht]
      · left
        have : ¬ id' = id := fun e => hn e.symm
        simp [constraint, TagOk, tagDiffers, nameDiffers, ht, hn, this]

theorem testNode_untestable (hn : (Dict.keys attrs).Nodup) (i : SelInfo V D)
    (h : Untestable tag attr attrs i) :
    testNode ne (constraint tag attr attrs) i = .error .type := by
  obtain ⟨ht, ⟨a, v, hr⟩, hk⟩ := h
  rcases testNode_tag ne tag attr attrs i with ⟨_, h⟩ | ⟨h, _⟩
  · exact absurd ht h
  · rw [h, hk, testAttrs_none]
    rw [← mem_constraint_attrs tag attr attrs hn] at hr
    rw [if_neg]
    intro he
    rw [he] at hr
    simp at hr

theorem testNode_testable (hn : (Dict.keys attrs).Nodup) (i : SelInfo V D)
    (h : ¬ Untestable tag attr attrs i) :
    ∃ b, testNode ne (constraint tag attr attrs) i = .ok b ∧
      (b = true ↔ Matches ne tag attr attrs i) := by
  rcases testNode_tag ne tag attr attrs i with ⟨h1, h2⟩ | ⟨h1, h2⟩
  · refine ⟨false, h1, ?_⟩
    simp only [Bool.false_eq_true, false_iff]
    exact fun hm => h2 hm.1
  · rw [h1]
    cases hk : i.kwattrs with
    | none =>
      have hne : ¬ ∃ a v, Required attr attrs a v := fun hh => h ⟨h2, hh, hk⟩
      rw [testAttrs_none]
      have : (constraint tag attr attrs).attrs = [] := by
        apply List.eq_nil_iff_forall_not_mem.mpr
        rintro ⟨a, v⟩ hm
        exact hne ⟨a, v, (mem_constraint_attrs tag attr attrs hn a v).mp hm⟩
      refine ⟨true, by simp [this], ?_⟩
      simp only [true_iff]
      exact ⟨h2, fun a v hr => absurd ⟨a, v, hr⟩ hne⟩
    | some kw =>
      obtain ⟨b, hb, hiff⟩ := testAttrs_some ne kw (constraint tag attr attrs).attrs
      refine ⟨b, hb, ?_⟩
      rw [hiff]
      constructor
      · intro hh
        refine ⟨h2, fun a v hr => ?_⟩
        obtain ⟨w, hw, hv⟩ := hh a v ((mem_constraint_attrs tag attr attrs hn a v).mpr hr)
        exact ⟨kw, w, hk, hw, hv⟩
      · rintro ⟨_, hm⟩ a v hr
        obtain ⟨kw', w, hk', hw, hv⟩ := hm a v ((mem_constraint_attrs tag attr attrs hn a v).mp hr)
        rw [hk] at hk'
        cases hk'
        exact ⟨w, hw, hv⟩

open Classical in
theorem selectLoop_ok (hn : (Dict.keys attrs).Nodup) (ts : List (Tree (SelInfo V D)))
    (h : ∀ t ∈ ts, ¬ Untestable tag attr attrs t.info) :
    selectLoop ne (constraint tag attr attrs) ts =
      .ok (ts.filter (fun t => Matches ne tag attr attrs t.info)) := by
  induction ts with
  | nil => rfl
  | cons t ts ih =>
    have ih := ih (fun u hu => h u (by simp [hu]))
    obtain ⟨b, hb, hiff⟩ := testNode_testable ne tag attr attrs hn t.info (h t (by simp))
    simp only [selectLoop, hb, ih, bind, Except.bind, pure, Except.pure, List.filter_cons]
    by_cases hm : Matches ne tag attr attrs t.info
    · have := hiff.mpr hm
      simp [this, hm]
    · have : b = false := by
        cases b with
        | false => rfl
        | true => exact absurd (hiff.mp rfl) hm
      simp [this, hm]

theorem selectLoop_error (hn : (Dict.keys attrs).Nodup) (ts : List (Tree (SelInfo V D)))
    (h : ∃ t ∈ ts, Untestable tag attr attrs t.info) :
    selectLoop ne (constraint tag attr attrs) ts = .error .type := by
  induction ts with
  | nil => simp at h
  | cons t ts ih =>
    by_cases ht : Untestable tag attr attrs t.info
    · simp [selectLoop, testNode_untestable ne tag attr attrs hn t.info ht, bind, Except.bind]
    · obtain ⟨b, hb, _⟩ := testNode_testable ne tag attr attrs hn t.info ht
      have : ∃ u ∈ ts, Untestable tag attr attrs u.info := by
        obtain ⟨u, hu, hx⟩ := h
        simp only [List.mem_cons] at hu
        rcases hu with rfl | hu
        · exact absurd hx ht
        · exact ⟨u, hu, hx⟩
      simp [selectLoop, hb, ih this, bind, Except.bind]

theorem filter_paths {α β} (P : α → Bool) (Q : β → Bool) (g : β → Option α) (l : List α) (ps : List β)
    (h : l.map some = ps.map g) (hq : ∀ p a, g p = some a → Q p = P a) :
    (l.filter P).map some = (ps.filter Q).map g := by
  induction l generalizing ps with
  | nil =>
    cases ps with
    | nil => rfl
    | cons p ps => simp at h
  | cons a l ih =>
    cases ps with
    | nil => simp at h
    | cons p ps =>
      simp only [List.map_cons, List.cons.injEq] at h
      have ih := ih ps h.2
      have hp := hq p a h.1.symm
      simp only [List.filter_cons, hp]
      by_cases hP : P a = true
      · simp [hP, ih, h.1]
      · simp [hP, ih]

end
end Verif
