import Verif.Spec.Django
import Verif.Props.StdTags

/-! C124: Django's filters. -/

namespace Verif
open Py Spec

/-! ### C124: the module of filters has all filters and nothing of its own -/

section
variable {O E : Type} {L : DjangoLib O} {std human g : Dict Str O}

theorem named_iff {d : Dict Str O} (hd : d.keys.Nodup) {n : Str} {v : O} : Named d n v ↔ d.get? n = some v :=
  ⟨Dict.get?_of_mem hd, mem_of_get?⟩

theorem not_named {d : Dict Str O} {n : Str} : (∀ w, ¬ Named d n w) ↔ n ∉ d.map Prod.fst := by
  constructor
  · intro h hm
    obtain ⟨⟨a, b⟩, hq, rfl⟩ := List.mem_map.1 hm
    exact h b hq
  · exact fun h w hw => h (List.mem_map.2 ⟨_, hw, rfl⟩)

/-- The value of a name after `update`. -/
theorem get?_updated {d e : Dict Str O} (he : (e.map Prod.fst).Nodup) {n : Str} :
    (d.update e).get? n = (e.get? n).or (d.get? n) := by
  rcases h : e.get? n with _ | v
  · rw [get?_update_of_not_mem, Option.none_or]
    intro hm
    obtain ⟨⟨a, b⟩, hq, rfl⟩ := List.mem_map.1 hm
    rw [Dict.get?_of_mem (d := e) he hq] at h
    cases h
  · rw [get?_update_of_mem _ _ (mem_of_get? h), Option.some_or]
    intro v' hv'
    rw [Dict.get?_of_mem (d := e) he hv'] at h
    exact Option.some.inj h

theorem delGlobal_ok {d : Dict Str O} (hd : d.keys.Nodup) {k : Str} {v : O} (h : d.get? k = some v) :
    ∃ m, delGlobal k d = .ok m ∧ m.keys.Nodup ∧ ∀ n, m.get? n = if k = n then none else d.get? n :=
  ⟨d.erase k, by rw [delGlobal, Dict.del, h], Dict.nodup_erase hd _, fun n => Dict.get?_erase d hd k n⟩

theorem updateFilters_ok {d e : Dict Str O} {k : Str} {r : O} (h : d.get? k = some r) (hr : L.filters r = some e) :
    updateFilters L k d = .ok (d.update e) := by
  rw [updateFilters, h]
  simp only [hr]

/-- With any version of Django the module is executed, unless settings were configured before, and each name in it stands for a filter (a
standard one, if both libraries have one of that name), or for what Python puts into each module; names used by the module itself are gone. -/
theorem C124_contents (hL : DjangoOk L std human) (hg : (g.map Prod.fst).Nodup) :
    ∃ m, filtersModule L false g = .ok m ∧ (m.map Prod.fst).Nodup ∧ ∀ n v, Named m n v ↔ FilterOf std human g n v := by
  have hh : ∀ k ∈ filterHelpers, std.get? k = none ∧ human.get? k = none := by
    intro k hk
    constructor
    · rcases h : std.get? k with _ | v
      · rfl
      · exact absurd hk (hL.names k v (.inl (mem_of_get? h)))
    · rcases h : human.get? k with _ | v
      · rfl
      · exact absurd hk (hL.names k v (.inr (mem_of_get? h)))
  obtain ⟨a1, a2⟩ := hh (s!!"__django__") (by simp [filterHelpers])
  obtain ⟨b1, b2⟩ := hh (s!!"__settings__") (by simp [filterHelpers])
  obtain ⟨c1, c2⟩ := hh (s!!"__register_default__") (by simp [filterHelpers])
  obtain ⟨d1, d2⟩ := hh (s!!"__register_humanize__") (by simp [filterHelpers])
  generalize hg0 : (((g.set (s!!"__django__") L.django).set (s!!"__settings__") L.settings).set
    (s!!"__register_default__") L.registerDefault).set (s!!"__register_humanize__") L.registerHumanize = g0
  have n0 : g0.keys.Nodup := by
    rw [← hg0]
    exact Dict.nodup_set (Dict.nodup_set (Dict.nodup_set (Dict.nodup_set hg _ _) _ _) _ _) _ _
  have e0 : ∀ n, g0.get? n = if s!!"__register_humanize__" = n then some L.registerHumanize else
      if s!!"__register_default__" = n then some L.registerDefault else
      if s!!"__settings__" = n then some L.settings else if s!!"__django__" = n then some L.django else g.get? n := by
    intro n
    rw [← hg0]
    simp only [Dict.get?_set]
  have e2 : ∀ n, ((g0.update human).update std).get? n = (std.get? n).or ((human.get? n).or (g0.get? n)) := by
    intro n
    rw [get?_updated hL.distinctStd, get?_updated hL.distinctHuman]
  have n2 : ((g0.update human).update std).keys.Nodup := Dict.nodup_update (Dict.nodup_update n0 _) _
  generalize hg2 : (g0.update human).update std = g2 at e2 n2
  obtain ⟨m1, x1, y1, z1⟩ := delGlobal_ok n2 (k := s!!"__django__") (v := L.django) (by rw [e2, a1, a2, e0]; rfl)
  obtain ⟨m2, x2, y2, z2⟩ := delGlobal_ok y1 (k := s!!"__settings__") (v := L.settings)
    (by rw [z1, if_neg (by decide), e2, b1, b2, e0]; rfl)
  obtain ⟨m3, x3, y3, z3⟩ := delGlobal_ok y2 (k := s!!"__register_default__") (v := L.registerDefault)
    (by rw [z2, if_neg (by decide), z1, if_neg (by decide), e2, c1, c2, e0]; rfl)
  obtain ⟨m4, x4, y4, z4⟩ := delGlobal_ok y3 (k := s!!"__register_humanize__") (v := L.registerHumanize)
    (by rw [z3, if_neg (by decide), z2, if_neg (by decide), z1, if_neg (by decide), e2, d1, d2, e0]; rfl)
  refine ⟨m4, ?_, y4, ?_⟩
  · have u1 : updateFilters L (s!!"__register_humanize__") g0 = .ok (g0.update human) :=
      updateFilters_ok (by rw [e0]; rfl) hL.humanLib
    have u2 : updateFilters L (s!!"__register_default__") (g0.update human) = .ok g2 := by
      rw [← hg2]
      exact updateFilters_ok (by rw [get?_updated hL.distinctHuman, c2, e0]; rfl) hL.stdLib
    simp only [filtersModule, hg0, u1, u2, x1, x2, x3, x4, bind, Except.bind, Bool.false_eq_true, if_false]
  · intro n v
    rw [named_iff y4]
    by_cases hn : n ∈ filterHelpers
    · constructor
      · intro h
        exfalso
        rw [z4, z3, z2, z1] at h
        simp only [filterHelpers, List.mem_cons, List.not_mem_nil, or_false] at hn
        rcases hn with rfl | rfl | rfl | rfl <;> simp at h
      · rintro (h | ⟨-, h⟩ | ⟨-, -, h, -⟩)
        · exact absurd hn (hL.names n v (.inl h))
        · exact absurd hn (hL.names n v (.inr h))
        · exact absurd hn h
    · have hn' := hn
      simp only [filterHelpers, List.mem_cons, List.not_mem_nil, or_false, not_or] at hn'
      rw [z4, if_neg (Ne.symm hn'.2.2.2), z3, if_neg (Ne.symm hn'.2.2.1), z2, if_neg (Ne.symm hn'.2.1), z1, if_neg (Ne.symm hn'.1), e2, e0,
        if_neg (Ne.symm hn'.2.2.2), if_neg (Ne.symm hn'.2.2.1), if_neg (Ne.symm hn'.2.1), if_neg (Ne.symm hn'.1)]
      have key : ∀ {d : Dict Str O}, (d.map Prod.fst).Nodup → d.get? n = none → ∀ w, ¬ Named d n w := by
        intro d hd h w hw
        rw [Dict.get?_of_mem hd hw] at h
        cases h
      constructor
      · intro h
        rcases hs : std.get? n with _ | w
        · rw [hs, Option.none_or] at h
          rcases hm : human.get? n with _ | w
          · rw [hm, Option.none_or] at h
            exact .own (key hL.distinctStd hs) (key hL.distinctHuman hm) hn (mem_of_get? h)
          · rw [hm, Option.some_or] at h
            cases h
            exact .human (key hL.distinctStd hs) (mem_of_get? hm)
        · rw [hs, Option.some_or] at h
          cases h
          exact .std (mem_of_get? hs)
      · have none_of : ∀ {d : Dict Str O}, (∀ w, ¬ Named d n w) → d.get? n = none := by
          intro d h
          rcases hd : d.get? n with _ | w
          · rfl
          · exact absurd (mem_of_get? hd) (h w)
        rintro (h | ⟨h1, h⟩ | ⟨h1, h2, -, h⟩)
        · rw [Dict.get?_of_mem hL.distinctStd h, Option.some_or]
        · rw [none_of h1, Option.none_or, Dict.get?_of_mem hL.distinctHuman h, Option.some_or]
        · rw [none_of h1, none_of h2, Option.none_or, Option.none_or, Dict.get?_of_mem hg h]

/-- The same for scripts: from the module, whatever the order in which its names are listed, a script can import each filter as a variable,
and nothing as a tag. -/
theorem C124_import (hL : DjangoOk L std human) (hg : (g.map Prod.fst).Nodup) (ht : ∀ v, ¬ FilterOf std human g (s!!"__tags__") v)
    {m : Dict Str O} (hm : filtersModule L false g = .ok m) (W : PyObjects O E) {attrs : List (Str × O)} (hp : attrs.Perm m) :
    ∃ syms, pyModule W attrs = .ok syms ∧ (∀ n v, syms.get? ('$' :: n) = some v ↔ FilterOf std human g n v) ∧
      ∀ s v, syms.get? s = some v → ∃ n, s = '$' :: n := by
  obtain ⟨m', h1, h2, h3⟩ := C124_contents hL hg
  cases hm.symm.trans h1
  have mem : ∀ n v, (n, v) ∈ attrs ↔ FilterOf std human g n v := fun n v => (hp.mem_iff).trans (h3 n v)
  have hd : DistinctNames attrs := by
    intro n v v' hv hv'
    have e1 := Dict.get?_of_mem h2 (hp.mem_iff.1 hv)
    have e2 := Dict.get?_of_mem h2 (hp.mem_iff.1 hv')
    exact Option.some.inj (e1.symm.trans e2)
  obtain ⟨syms, hs⟩ := (C92_accepted (W := W) hd).2 (fun o ho => absurd ((mem _ _).1 ho) (ht o))
  refine ⟨syms, hs, fun n v => ?_, fun s v h => ?_⟩
  · by_cases hn : n = tagsName
    · subst hn
      constructor
      · intro h
        rcases C92_only hd hs h with ⟨n, e, hne, -⟩ | ⟨d, n, ⟨o, ho, -⟩, -⟩
        · cases e
          exact absurd rfl hne
        · exact absurd ((mem _ _).1 ho) (ht o)
      · exact fun h => absurd h (ht v)
    · rw [C92_variable hd hs hn]
      exact mem n v
  · rcases C92_only hd hs h with ⟨n, e, -⟩ | ⟨d, n, ⟨o, ho, -⟩, -⟩
    · exact ⟨n, e⟩
    · exact absurd ((mem _ _).1 ho) (ht o)

/-- The module can be imported exactly where settings of Django were not configured before; so it cannot in a running site. -/
theorem C124_importable (hL : DjangoOk L std human) (hg : (g.map Prod.fst).Nodup) {configured : Bool} :
    (∃ m, filtersModule L configured g = .ok m) ↔ configured = false := by
  cases configured with
  | false => exact ⟨fun _ => rfl, fun _ => (C124_contents hL hg).imp fun _ h => h.1⟩
  | true => exact ⟨fun ⟨_, h⟩ => (by cases h), fun h => (by cases h)⟩

/-- The condition on names matters: a filter called like one of the names the module uses is lost. -/
theorem C124_names_matter : ∃ (L : DjangoLib Nat) (m : Dict Str Nat), L.filters L.registerDefault = some [(s!!"__settings__", 7)] ∧
    L.filters L.registerHumanize = some [] ∧ filtersModule L false [] = .ok m ∧ ∀ n v, ¬ Named m n v :=
  ⟨⟨0, 1, 2, 3, fun o => if o = 2 then some [(s!!"__settings__", 7)] else some []⟩, [], rfl, rfl, by decide, fun _ _ h => by cases h⟩

end

/-! ### Examples -/

section Examples

/-- A Django with filters `slugify` and `upper`, and of humanize `ordinal` and another `upper`. -/
def exDjango : DjangoLib Nat where
  django := 0
  settings := 1
  registerDefault := 2
  registerHumanize := 3
  filters o := if o = 2 then some [(s!!"slugify", 10), (s!!"upper", 11)]
    else if o = 3 then some [(s!!"upper", 20), (s!!"ordinal", 21)] else none

theorem exDjango_ok : DjangoOk exDjango [(s!!"slugify", 10), (s!!"upper", 11)] [(s!!"upper", 20), (s!!"ordinal", 21)] where
  stdLib := rfl
  humanLib := rfl
  distinctStd := by decide
  distinctHuman := by decide
  names := by
    rintro n v (h | h) <;> simp only [Named, List.mem_cons, List.not_mem_nil, or_false, Prod.mk.injEq] at h <;>
      rcases h with ⟨rfl, -⟩ | ⟨rfl, -⟩ <;> decide

example : ∃ m, filtersModule exDjango false [(s!!"__name__", 5)] = .ok m ∧ Named m (s!!"upper") 11 ∧ Named m (s!!"ordinal") 21 ∧
    Named m (s!!"__name__") 5 ∧ ∀ v, ¬ Named m (s!!"__settings__") v := by
  obtain ⟨m, h, -, h2⟩ := C124_contents exDjango_ok (g := [(s!!"__name__", 5)]) (by decide)
  refine ⟨m, h, (h2 _ _).2 (.std (by simp [Named])), (h2 _ _).2 (.human ?_ (by simp [Named])), (h2 _ _).2 (.own ?_ ?_ (by decide) (by simp [Named])), ?_⟩
  · exact not_named.2 (by decide)
  · exact not_named.2 (by decide)
  · exact not_named.2 (by decide)
  · intro v hv
    rcases (h2 _ _).1 hv with h | ⟨-, h⟩ | ⟨-, -, h, -⟩
    · exact exDjango_ok.names _ _ (.inl h) (by decide)
    · exact exDjango_ok.names _ _ (.inr h) (by decide)
    · exact h (by decide)

example : filtersModule exDjango false [(s!!"__name__", 5)] =
    .ok [(s!!"__name__", 5), (s!!"upper", 11), (s!!"ordinal", 21), (s!!"slugify", 10)] := by decide

end Examples
end Verif
