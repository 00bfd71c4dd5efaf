import Verif.Lemmas.Comp
import Verif.Lemmas.Dict
import Verif.Spec.CallBinding

/-! The binding of hypertag attributes (`appendAttrs`) compared with the binding of call arguments. -/

namespace Verif
open Py

namespace CallBinding
section
variable {V : Type}

/-- A given value stays, otherwise the keyword argument of that name. -/
def merge (kw : Dict Str V) (p : AttrDef × Option V) : AttrDef × Option V :=
  (p.1, p.2.or (Dict.get? kw p.1.name))

theorem keyword_eq (name : Str) (v : V) (slots : List (AttrDef × Option V))
    (hn : (slots.map (·.1.name)).Nodup) :
    keyword name v slots =
      if ∃ p ∈ slots, p.1.name = name ∧ p.2 = none then some (slots.map (merge [(name, v)])) else none := by
  induction slots with
  | nil => simp [keyword]
  | cons p rest ih =>
    obtain ⟨a, o⟩ := p
    simp only [List.map_cons, List.nodup_cons] at hn
    have ih := ih hn.2
    have hne : ∀ n, n = a.name → ∀ p ∈ rest, p.1.name ≠ n := by
      rintro n rfl p hp e
      exact hn.1 (List.mem_map.2 ⟨p, hp, e⟩)
    cases o with
    | some w =>
      by_cases h : a.name = name
      · have : ¬ ∃ p ∈ rest, p.1.name = name ∧ p.2 = none := by
          rintro ⟨p, hp, e, -⟩
          exact hne name h.symm p hp e
        simp [keyword, h]
        intro p hp e
        exact hne name h.symm (p, none) hp e
      · simp only [keyword, h, if_false, ih]
        by_cases hc : ∃ p ∈ rest, p.1.name = name ∧ p.2 = none
        · rw [if_pos hc, if_pos (by
            obtain ⟨p, hp, h1⟩ := hc
            exact ⟨p, List.mem_cons_of_mem _ hp, h1⟩)]
          simp [merge]
        · rw [if_neg hc, if_neg (by
            rintro ⟨p, hp, h1, h2⟩
            rcases List.mem_cons.1 hp with rfl | hp
            · cases h2
            · exact hc ⟨p, hp, h1, h2⟩)]
          rfl
    | none =>
      by_cases h : a.name = name
      · rw [keyword, if_pos h, if_pos ⟨(a, none), by simp, h, rfl⟩]
        have : rest.map (merge [(name, v)]) = rest := by
          conv => rhs; rw [← List.map_id rest]
          refine List.map_congr_left (fun p hp => ?_)
          simp [merge, Dict.get?, Ne.symm (hne name h.symm p hp)]
        simp [merge, Dict.get?, this, h]
      · simp only [keyword, h, if_false, ih]
        by_cases hc : ∃ p ∈ rest, p.1.name = name ∧ p.2 = none
        · rw [if_pos hc, if_pos (by
            obtain ⟨p, hp, h1⟩ := hc
            exact ⟨p, List.mem_cons_of_mem _ hp, h1⟩)]
          simp [merge, Dict.get?, Ne.symm h]
        · rw [if_neg hc, if_neg (by
            rintro ⟨p, hp, h1, h2⟩
            rcases List.mem_cons.1 hp with rfl | hp
            · exact h h1
            · exact hc ⟨p, hp, h1, h2⟩)]
          rfl

theorem merge_names (kw : Dict Str V) (slots : List (AttrDef × Option V)) :
    (slots.map (merge kw)).map (·.1.name) = slots.map (·.1.name) := by
  rw [List.map_map]; rfl

theorem keywords_eq (kw : Dict Str V) (slots : List (AttrDef × Option V))
    (hn : (slots.map (·.1.name)).Nodup) (hk : (Dict.keys kw).Nodup) :
    keywords kw slots =
      if ∀ n ∈ Dict.keys kw, ∃ p ∈ slots, p.1.name = n ∧ p.2 = none
      then some (slots.map (merge kw)) else none := by
  induction kw generalizing slots with
  | nil =>
    simp only [keywords, Dict.keys, List.map_nil, List.not_mem_nil, false_imp_iff, implies_true, if_true]
    congr 1
    conv => lhs; rw [← List.map_id slots]
    refine List.map_congr_left (fun p _ => ?_)
    simp [merge, Dict.get?]
  | cons q kw ih =>
    obtain ⟨name, v⟩ := q
    simp only [Dict.keys, List.map_cons, List.nodup_cons] at hk
    rw [keywords, keyword_eq _ _ _ hn]
    by_cases h1 : ∃ p ∈ slots, p.1.name = name ∧ p.2 = none
    · rw [if_pos h1, Option.bind_some, ih _ (by rw [merge_names]; exact hn) hk.2]
      have hmm : (slots.map (merge [(name, v)])).map (merge kw) = slots.map (merge ((name, v) :: kw)) := by
        rw [List.map_map]
        refine List.map_congr_left (fun p _ => ?_)
        obtain ⟨a, o⟩ := p
        cases o with
        | some w => simp [merge]
        | none =>
          by_cases h : name = a.name <;> simp [merge, Dict.get?, h]
      have hiff : (∀ n ∈ Dict.keys kw, ∃ p ∈ slots.map (merge [(name, v)]), p.1.name = n ∧ p.2 = none) ↔
          (∀ n ∈ Dict.keys ((name, v) :: kw), ∃ p ∈ slots, p.1.name = n ∧ p.2 = none) := by
        constructor
        · intro h n hm
          simp only [Dict.keys, List.map_cons, List.mem_cons] at hm
          rcases hm with rfl | hm
          · exact h1
          · obtain ⟨p, hp, e1, e2⟩ := h n hm
            obtain ⟨p', hp', rfl⟩ := List.mem_map.1 hp
            refine ⟨p', hp', e1, ?_⟩
            simp only [merge] at e2
            cases hp2 : p'.2 with
            | none => rfl
            | some w => simp [hp2] at e2
        · intro h n hm
          obtain ⟨p, hp, e1, e2⟩ := h n (by simp only [Dict.keys, List.map_cons]; exact List.mem_cons_of_mem _ hm)
          refine ⟨merge [(name, v)] p, List.mem_map_of_mem hp, e1, ?_⟩
          have : name ≠ p.1.name := by
            intro e
            exact hk.1 (by rw [e, e1]; exact hm)
          simp [merge, e2, Dict.get?, this]
      rw [hmm]
      by_cases hc : ∀ n ∈ Dict.keys ((name, v) :: kw), ∃ p ∈ slots, p.1.name = n ∧ p.2 = none
      · rw [if_pos hc, if_pos (hiff.2 hc)]
      · rw [if_neg hc, if_neg (fun h => hc (hiff.1 h))]
    · rw [if_neg h1, if_neg (fun h => h1 (h name (by simp [Dict.keys])))]
      rfl

/-- The first `pos.length` slots are filled. -/
def padded : List AttrDef → List V → List (AttrDef × Option V)
  | [], _ => []
  | a :: as, [] => (a, none) :: padded as []
  | a :: as, v :: vs => (a, some v) :: padded as vs

theorem padded_nil (as : List AttrDef) : padded (V := V) as [] = as.map (fun a => (a, none)) := by
  induction as with
  | nil => rfl
  | cons a as ih => simp [padded, ih]

theorem positional_eq (as : List AttrDef) (vs : List V) :
    positional as vs = if vs.length ≤ as.length then some (padded as vs) else none := by
  induction as generalizing vs with
  | nil => cases vs <;> simp [positional, padded]
  | cons a as ih =>
    cases vs with
    | nil => simp [positional, padded, padded_nil]
    | cons v vs =>
      simp only [positional, ih, List.length_cons, Nat.add_le_add_iff_right, padded]
      split <;> rfl

theorem padded_names (as : List AttrDef) (vs : List V) : (padded as vs).map (·.1.name) = as.map (·.name) := by
  induction as generalizing vs with
  | nil => rfl
  | cons a as ih => cases vs <;> simp [padded, ih]

theorem padded_fst (as : List AttrDef) (vs : List V) : (padded as vs).map (·.1) = as := by
  induction as generalizing vs with
  | nil => rfl
  | cons a as ih => cases vs <;> simp [padded, ih]

theorem bind_eq (as : List AttrDef) (vs : List V) (kw : Dict Str V) (hn : (as.map (·.name)).Nodup)
    (hk : (Dict.keys kw).Nodup) :
    bind as vs kw =
      if vs.length ≤ as.length ∧ ∀ n ∈ Dict.keys kw, ∃ p ∈ padded as vs, p.1.name = n ∧ p.2 = none
      then some ((padded as vs).map (merge kw)) else none := by
  rw [bind, positional_eq]
  by_cases h : vs.length ≤ as.length
  · rw [if_pos h, Option.bind_some, keywords_eq _ _ (by rw [padded_names]; exact hn) hk]
    by_cases hc : ∀ n ∈ Dict.keys kw, ∃ p ∈ padded as vs, p.1.name = n ∧ p.2 = none
    · rw [if_pos hc, if_pos ⟨h, hc⟩]
    · rw [if_neg hc, if_neg (fun h' => hc h'.2)]
  · rw [if_neg h, if_neg (fun h' => h h'.1)]
    rfl

theorem mem_padded_names {as : List AttrDef} {vs : List V} {p : AttrDef × Option V}
    (h : p ∈ padded as vs) : p.1.name ∈ as.map (·.name) := by
  rw [← padded_names as vs]
  exact List.mem_map_of_mem h

/-- The dictionary of attribute values agrees with the slots. -/
structure Rel (kw : Dict Str V) (slots : List (AttrDef × Option V)) : Prop where
  nodup : (Dict.keys kw).Nodup
  names : ∀ n ∈ Dict.keys kw, n ∈ slots.map (·.1.name)
  values : ∀ p ∈ slots, Dict.get? kw p.1.name = p.2

end

section
variable {P X W : Type}

theorem bindPositional_isSome (as : List AttrDef) (vs : List (Val P)) (kw : Dict Str (Val P))
    (hn : (as.map (·.name)).Nodup) :
    (bindPositional as vs kw).isSome ↔
      ∀ p ∈ padded as vs, p.2.isSome → p.1.name ∉ Dict.keys kw := by
  induction as generalizing vs kw with
  | nil => simp [bindPositional, padded]
  | cons a as ih =>
    simp only [List.map_cons, List.nodup_cons] at hn
    cases vs with
    | nil =>
      simp only [bindPositional, padded, padded_nil, Option.isSome_some, true_iff]
      intro p hp h
      rcases List.mem_cons.1 hp with rfl | hp
      · simp at h
      · obtain ⟨b, _, rfl⟩ := List.mem_map.1 hp
        simp at h
    | cons v vs =>
      rw [bindPositional]
      split
      next h =>
        rw [Dict.get?_isSome_iff] at h
        simp only [Option.isSome_none, Bool.false_eq_true, false_iff]
        intro hall
        exact hall (a, some v) (by simp [padded]) rfl h
      next h =>
        rw [Dict.get?_isSome_iff] at h
        rw [ih _ _ hn.2]
        have hset : ∀ p ∈ padded as vs, (p.1.name ∉ Dict.keys (Dict.set kw a.name v) ↔ p.1.name ∉ Dict.keys kw) := by
          intro p hp
          have : p.1.name ≠ a.name := fun e => hn.1 (e ▸ mem_padded_names hp)
          rw [Dict.keys_set, if_neg h]
          simp [this]
        constructor
        · intro hall p hp hs
          rcases List.mem_cons.1 hp with rfl | hp
          · exact h
          · exact (hset p hp).1 (hall p hp hs)
        · intro hall p hp hs
          exact (hset p hp).2 (hall p (List.mem_cons_of_mem _ hp) hs)

theorem bindPositional_some (as : List AttrDef) (vs : List (Val P)) (kw kw1 : Dict Str (Val P))
    (hn : (as.map (·.name)).Nodup) (h : bindPositional as vs kw = some kw1) :
    ((Dict.keys kw).Nodup → (Dict.keys kw1).Nodup) ∧
    (∀ n ∈ Dict.keys kw1, n ∈ Dict.keys kw ∨ n ∈ as.map (·.name)) ∧
    (∀ p ∈ padded as vs, Dict.get? kw1 p.1.name = (merge kw p).2) ∧
    (∀ n, n ∉ as.map (·.name) → Dict.get? kw1 n = Dict.get? kw n) := by
  induction as generalizing vs kw with
  | nil =>
    cases h
    exact ⟨id, fun n hn => .inl hn, by simp [padded], fun _ _ => rfl⟩
  | cons a as ih =>
    simp only [List.map_cons, List.nodup_cons] at hn
    cases vs with
    | nil =>
      cases h
      refine ⟨id, fun n hn => .inl hn, fun p hp => ?_, fun _ _ => rfl⟩
      rw [padded_nil] at hp
      obtain ⟨b, _, rfl⟩ := List.mem_map.1 hp
      simp [merge]
    | cons v vs =>
      rw [bindPositional] at h
      split at h
      · cases h
      next hk =>
        rw [Dict.get?_isSome_iff] at hk
        obtain ⟨h1, h2, h3, h4⟩ := ih _ _ hn.2 h
        refine ⟨fun hnd => h1 (Dict.nodup_set hnd _ _), fun n hm => ?_, fun p hp => ?_, fun n hm => ?_⟩
        · rcases h2 n hm with h' | h'
          · rw [Dict.keys_set, if_neg hk] at h'
            rcases List.mem_append.1 h' with h' | h'
            · exact .inl h'
            · right; simp at h'; simp [h']
          · right; simp only [List.map_cons]; exact List.mem_cons_of_mem _ h'
        · rcases List.mem_cons.1 hp with rfl | hp
          · rw [h4 _ hn.1, Dict.get?_set]; simp [merge]
          · rw [h3 p hp]
            have : a.name ≠ p.1.name := fun e => hn.1 (e ▸ mem_padded_names hp)
            simp [merge, Dict.get?_set, this]
        · simp only [List.map_cons, List.mem_cons, not_or] at hm
          rw [h4 n hm.2, Dict.get?_set, if_neg (Ne.symm hm.1)]

/-- Filling in defaults, with the dictionary and with the list of slots. -/
theorem bindDefaults_eq (E : Env P X W) (σ : StateId) (slots : List (AttrDef × Option (Val P)))
    (kw : Dict Str (Val P)) (hn : (slots.map (·.1.name)).Nodup)
    (hv : ∀ p ∈ slots, Dict.get? kw p.1.name = p.2) (M : Machine P W) :
    (∀ vals M1, defaults E σ slots M = (.ok vals, M1) →
      ∃ kw2, bindDefaults E σ (slots.map (·.1)) kw M = (.ok kw2, M1) ∧
        vals.map (·.1) = slots.map (·.1) ∧
        ((Dict.keys kw).Nodup → (Dict.keys kw2).Nodup) ∧
        (∀ n ∈ Dict.keys kw2, n ∈ Dict.keys kw ∨ n ∈ slots.map (·.1.name)) ∧
        (∀ p ∈ vals, Dict.get? kw2 p.1.name = some p.2) ∧
        (∀ n, n ∉ slots.map (·.1.name) → Dict.get? kw2 n = Dict.get? kw n)) ∧
    (∀ e M1, defaults E σ slots M = (.raise e, M1) →
      bindDefaults E σ (slots.map (·.1)) kw M = (.raise e, M1)) ∧
    (∀ M1, defaults E σ slots M = (.timeout, M1) →
      bindDefaults E σ (slots.map (·.1)) kw M = (.timeout, M1)) := by
  induction slots generalizing kw M with
  | nil =>
    refine ⟨fun vals M1 h => ?_, fun e M1 h => ?_, fun M1 h => ?_⟩
    · cases h
      exact ⟨kw, rfl, rfl, id, fun n hm => .inl hm, by simp, fun _ _ => rfl⟩
    · cases h
    · cases h
  | cons p slots ih =>
    obtain ⟨a, o⟩ := p
    simp only [List.map_cons, List.nodup_cons] at hn
    have hhead : Dict.get? kw a.name = o := hv (a, o) (by simp)
    have htail : ∀ p ∈ slots, p.1.name ≠ a.name := fun p hp e =>
      hn.1 (e ▸ List.mem_map_of_mem (f := fun p : AttrDef × Option (Val P) => p.1.name) hp)
    cases o with
    | some v =>
      obtain ⟨i1, i2, i3⟩ := ih kw hn.2 (fun p hp => hv p (List.mem_cons_of_mem _ hp)) M
      have hb : bindDefaults E σ (((a, some v) :: slots).map (·.1)) kw M =
          bindDefaults E σ (slots.map (·.1)) kw M := by
        simp [bindDefaults, hhead]
      rw [hb]
      have hd : defaults E σ ((a, some v) :: slots) M =
          Comp.next (fun vs => (Pure.pure ((a, v) :: vs) : Comp P X W _)) (defaults E σ slots M) := rfl
      rw [hd]
      rcases hr : defaults E σ slots M with ⟨r, M1⟩
      cases r with
      | ok vs =>
        refine ⟨fun vals M1' h => ?_, fun e M1' h => (by cases h), fun M1' h => (by cases h)⟩
        cases h
        obtain ⟨kw2, j1, j2, j3, j4, j5, j6⟩ := i1 _ _ hr
        refine ⟨kw2, j1, by simp [j2], j3, fun n hm => ?_, fun p hp => ?_, fun n hm => ?_⟩
        · rcases j4 n hm with h | h
          · exact .inl h
          · right; simp only [List.map_cons]; exact List.mem_cons_of_mem _ h
        · rcases List.mem_cons.1 hp with rfl | hp
          · rw [j6 _ hn.1]; exact hhead
          · exact j5 p hp
        · simp only [List.map_cons, List.mem_cons, not_or] at hm
          exact j6 n hm.2
      | raise e =>
        refine ⟨fun vals M1' h => (by cases h), fun e M1' h => ?_, fun M1' h => (by cases h)⟩
        cases h
        exact i2 _ _ hr
      | timeout =>
        refine ⟨fun vals M1' h => (by cases h), fun e M1' h => (by cases h), fun M1' h => ?_⟩
        cases h
        exact i3 _ hr
    | none =>
      cases hd : a.default with
      | none =>
        have hb : bindDefaults E σ (((a, .none) :: slots).map (·.1)) kw = Comp.raise .typeErr := by
          simp [bindDefaults, hhead, hd]
        have hd' : defaults E σ ((a, .none) :: slots) = Comp.raise .typeErr := by
          simp [defaults, hd]
        rw [hb, hd']
        refine ⟨fun vals M1' h => (by cases h), fun e M1' h => ?_, fun M1' h => (by cases h)⟩
        cases h
        rfl
      | some ex =>
        have hb : bindDefaults E σ (((a, .none) :: slots).map (·.1)) kw = (do
            let v ← eval E σ ex
            bindDefaults E σ (slots.map (·.1)) (Dict.set kw a.name v)) := by
          simp [bindDefaults, hhead, hd]
        have hd' : defaults E σ ((a, .none) :: slots) = (do
            let v ← eval E σ ex
            let vs ← defaults E σ slots
            return (a, v) :: vs) := by
          simp [defaults, hd]
        rw [hb, hd']
        rcases he : eval E σ ex M with ⟨r, M0⟩
        cases r with
        | raise e =>
          rw [Comp.bind_raise he, Comp.bind_raise he]
          refine ⟨fun vals M1' h => (by cases h), fun e M1' h => ?_, fun M1' h => (by cases h)⟩
          cases h; rfl
        | timeout =>
          rw [Comp.bind_timeout he, Comp.bind_timeout he]
          refine ⟨fun vals M1' h => (by cases h), fun e M1' h => (by cases h), fun M1' h => ?_⟩
          cases h; rfl
        | ok v =>
          rw [Comp.bind_ok he, Comp.bind_ok he]
          obtain ⟨i1, i2, i3⟩ := ih (Dict.set kw a.name v) hn.2 (fun p hp => by
            rw [Dict.get?_set, if_neg (Ne.symm (htail p hp))]
            exact hv p (List.mem_cons_of_mem _ hp)) M0
          have hd : (do
              let vs ← defaults E σ slots
              return (a, v) :: vs : Comp P X W _) M0 =
            Comp.next (fun vs => (Pure.pure ((a, v) :: vs) : Comp P X W _)) (defaults E σ slots M0) := rfl
          rw [hd]
          rcases hr : defaults E σ slots M0 with ⟨r, M1⟩
          cases r with
          | ok vs =>
            refine ⟨fun vals M1' h => ?_, fun e M1' h => (by cases h), fun M1' h => (by cases h)⟩
            cases h
            obtain ⟨kw2, j1, j2, j3, j4, j5, j6⟩ := i1 _ _ hr
            have hk : a.name ∉ Dict.keys kw := (Dict.get?_eq_none_iff _ _).1 hhead
            refine ⟨kw2, j1, by simp [j2], fun hnd => j3 (Dict.nodup_set hnd _ _),
              fun n hm => ?_, fun p hp => ?_, fun n hm => ?_⟩
            · rcases j4 n hm with h | h
              · rw [Dict.keys_set, if_neg hk] at h
                rcases List.mem_append.1 h with h | h
                · exact .inl h
                · right; simp at h; simp [h]
              · right; simp only [List.map_cons]; exact List.mem_cons_of_mem _ h
            · rcases List.mem_cons.1 hp with rfl | hp
              · rw [j6 _ hn.1, Dict.get?_set]; simp
              · exact j5 p hp
            · simp only [List.map_cons, List.mem_cons, not_or] at hm
              rw [j6 n hm.2, Dict.get?_set, if_neg (Ne.symm hm.1)]
          | raise e =>
            refine ⟨fun vals M1' h => (by cases h), fun e M1' h => ?_, fun M1' h => (by cases h)⟩
            cases h
            exact i2 _ _ hr
          | timeout =>
            refine ⟨fun vals M1' h => (by cases h), fun e M1' h => (by cases h), fun M1' h => ?_⟩
            cases h
            exact i3 _ hr

theorem find?_name {as : List AttrDef} {a : AttrDef} (hn : (as.map (·.name)).Nodup) (ha : a ∈ as) :
    as.find? (fun b => b.name = a.name) = some a := by
  induction as with
  | nil => cases ha
  | cons b as ih =>
    simp only [List.map_cons, List.nodup_cons] at hn
    rcases List.mem_cons.1 ha with rfl | ha
    · simp
    · have : b.name ≠ a.name := fun e => hn.1 (e ▸ List.mem_map_of_mem ha)
      simp [this, ih hn.2 ha]

theorem inj_of_nodup_map {α β : Type} {f : α → β} {l : List α} (h : (l.map f).Nodup) {a b : α}
    (ha : a ∈ l) (hb : b ∈ l) (e : f a = f b) : a = b := by
  induction l with
  | nil => cases ha
  | cons c l ih =>
    simp only [List.map_cons, List.nodup_cons] at h
    rcases List.mem_cons.1 ha with rfl | ha' <;> rcases List.mem_cons.1 hb with rfl | hb'
    · rfl
    · exact absurd (List.mem_map.2 ⟨b, hb', e.symm⟩) h.1
    · exact absurd (List.mem_map.2 ⟨a, ha', e⟩) h.1
    · exact ih h.2 ha' hb'

/-- Assignments in any order: every name in `kw` is an attribute with a slot of its own. -/
theorem assignAttrs_eq (σ : StateId) (as : List AttrDef) (hn : (as.map (·.name)).Nodup)
    (slotOf : AttrDef → Slot) (hs : ∀ a ∈ as, a.slot = some (slotOf a))
    (hd : (as.map slotOf).Nodup) (kw : Dict Str (Val P)) (hk : (Dict.keys kw).Nodup)
    (hm : ∀ n ∈ Dict.keys kw, n ∈ as.map (·.name)) (M : Machine P W) :
    ∃ M', assignAttrs (X := X) σ as kw M = (.ok (), M') ∧
      (∀ a ∈ as, (M'.states σ).values (slotOf a) =
        (Dict.get? kw a.name).or ((M.states σ).values (slotOf a))) ∧
      (∀ sl, sl ∉ as.map slotOf → (M'.states σ).values sl = (M.states σ).values sl) ∧
      M' = M.updState σ (fun s => { s with values := (M'.states σ).values }) := by
  induction kw generalizing M with
  | nil =>
    refine ⟨M, rfl, by simp [Dict.get?], fun _ _ => rfl, ?_⟩
    obtain ⟨st, mem⟩ := M
    simp only [Machine.updState, Machine.mk.injEq, and_true]
    funext τ
    by_cases h : τ = σ
    · subst h; simp
    · simp [h]
  | cons q kw ih =>
    obtain ⟨n, v⟩ := q
    simp only [Dict.keys, List.map_cons, List.nodup_cons] at hk
    obtain ⟨a, ha, rfl⟩ := List.mem_map.1 (hm n (by simp [Dict.keys]))
    obtain ⟨M', h1, h2, h3, h4⟩ := ih hk.2 (fun n hn => hm n (by
      simp only [Dict.keys, List.map_cons]; exact List.mem_cons_of_mem _ hn))
      (M.updState σ (fun s => { s with values := fun t => if t = slotOf a then some v else s.values t }))
    refine ⟨M', ?_, fun b hb => ?_, fun sl hsl => ?_, ?_⟩
    · simp only [assignAttrs, find?_name hn ha, assignAttr, hs a ha]
      exact h1
    · rw [h2 b hb]
      by_cases e : b.name = a.name
      · have hba : b = a := by
          have h5 := find?_name hn hb
          rw [e, find?_name hn ha] at h5
          exact (Option.some.inj h5).symm
        subst hba
        have : Dict.get? kw b.name = .none := (Dict.get?_eq_none_iff _ _).2 hk.1
        simp [this, Dict.get?, Machine.updState]
      · have hne : slotOf b ≠ slotOf a := by
          intro e'
          exact e (congrArg AttrDef.name (inj_of_nodup_map hd hb ha e'))
        simp [Dict.get?, Ne.symm e, Machine.updState, hne]
    · rw [h3 sl hsl]
      have : sl ≠ slotOf a := fun e => hsl (e ▸ List.mem_map_of_mem ha)
      simp [Machine.updState, this]
    · conv => lhs; rw [h4]
      simp only [Machine.updState, Machine.mk.injEq, and_true]
      funext τ
      by_cases h : τ = σ
      · subst h; simp
      · simp [h]

theorem update_nodup (d ps : Dict Str (Val P)) (hd : (Dict.keys (d ++ ps)).Nodup) :
    Dict.update d ps = d ++ ps := by
  induction ps generalizing d with
  | nil => simp [Dict.update]
  | cons q ps ih =>
    obtain ⟨n, v⟩ := q
    have hset : Dict.set d n v = d ++ [(n, v)] := by
      have hn : n ∉ Dict.keys d := by
        simp only [Dict.keys, List.map_append, List.map_cons] at hd
        have := (List.nodup_append.1 hd).2.2
        intro hm
        exact this n hm n (by simp) rfl
      clear hd ih
      induction d with
      | nil => rfl
      | cons e d ih =>
        obtain ⟨k, w⟩ := e
        simp only [Dict.keys, List.map_cons, List.mem_cons, not_or] at hn
        simp only [Dict.set, Ne.symm hn.1, if_false, List.cons_append, List.cons.injEq, true_and]
        exact ih hn.2
    rw [Dict.update, hset, ih _ (by simpa using hd)]
    simp

end
end CallBinding
end Verif
