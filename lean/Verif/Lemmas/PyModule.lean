import Verif.Model.PyModule
import Verif.Lemmas.Dict

/-! Symbols of Python modules. -/

namespace Verif
open Py

section
variable {O E : Type}

theorem get?_update_of_not_mem {K V : Type} [DecidableEq K] (d : Dict K V) (ps : List (K × V)) {k : K}
    (h : k ∉ ps.map Prod.fst) : Dict.get? (Dict.update d ps) k = Dict.get? d k := by
  induction ps generalizing d with
  | nil => rfl
  | cons p ps ih =>
    rw [List.map_cons, List.mem_cons, not_or] at h
    rw [Dict.update, ih _ h.2, Dict.get?_set, if_neg (fun e => h.1 e.symm)]

theorem get?_update_of_mem {K V : Type} [DecidableEq K] (d : Dict K V) (ps : List (K × V)) {k : K} {v : V}
    (h : (k, v) ∈ ps) (hn : ∀ v', (k, v') ∈ ps → v' = v) : Dict.get? (Dict.update d ps) k = some v := by
  induction ps generalizing d with
  | nil => cases h
  | cons p ps ih =>
    obtain ⟨k', v'⟩ := p
    rw [Dict.update]
    by_cases hm : k ∈ ps.map Prod.fst
    · obtain ⟨⟨a, b⟩, hq, rfl⟩ := List.mem_map.1 hm
      have : b = v := hn b (List.mem_cons_of_mem _ hq)
      subst this
      exact ih _ hq (fun v'' h'' => hn v'' (List.mem_cons_of_mem _ h''))
    · rw [get?_update_of_not_mem _ _ hm, Dict.get?_set]
      rcases List.mem_cons.1 h with e | e
      · cases e; rw [if_pos rfl]
      · exact absurd (List.mem_map.2 ⟨(k, v), e, rfl⟩) hm

theorem mem_of_get? {K V : Type} [DecidableEq K] {d : Dict K V} {k : K} {v : V} (h : Dict.get? d k = some v) :
    (k, v) ∈ d := by
  induction d with
  | nil => cases h
  | cons p d ih =>
    obtain ⟨k', v'⟩ := p
    rw [Dict.get?] at h
    split at h
    · rename_i e; cases e; cases h; exact List.mem_cons_self
    · exact List.mem_cons_of_mem _ (ih h)

theorem get?_update_mem {K V : Type} [DecidableEq K] {d : Dict K V} {ps : List (K × V)} {k : K} {v : V}
    (h : Dict.get? (Dict.update d ps) k = some v) : (k, v) ∈ ps ∨ Dict.get? d k = some v := by
  induction ps generalizing d with
  | nil => exact .inr h
  | cons p ps ih =>
    rcases ih h with h1 | h1
    · exact .inl (List.mem_cons_of_mem _ h1)
    · rw [Dict.get?_set] at h1
      split at h1
      · rename_i e; cases h1; exact .inl (by rw [← e]; exact List.mem_cons_self)
      · exact .inr h1

theorem tagSymbols_eq {l : List (Str × O)} {r : List (Str × O)} (h : tagSymbols (E := E) l = .ok r) :
    ∀ s t, (s, t) ∈ r ↔ ∃ n, (n, t) ∈ l ∧ tagSymbol n = some s := by
  induction l generalizing r with
  | nil => cases h; simp
  | cons p l ih =>
    obtain ⟨n, t⟩ := p
    rw [tagSymbols] at h
    split at h
    · cases h
    · rename_i s hs
      split at h
      · cases h
      · rename_i l' hl
        cases h
        intro s' t'
        rw [List.mem_cons, ih hl]
        constructor
        · rintro (e | ⟨m, h1, h2⟩)
          · cases e; exact ⟨n, List.mem_cons_self, hs⟩
          · exact ⟨m, List.mem_cons_of_mem _ h1, h2⟩
        · rintro ⟨m, h1, h2⟩
          rcases List.mem_cons.1 h1 with e | e
          · cases e; rw [hs] at h2; cases h2; exact .inl rfl
          · exact .inr ⟨m, e, h2⟩

theorem tagSymbols_ok {l : List (Str × O)} (h : ∀ p ∈ l, p.1 ≠ []) : ∃ r, tagSymbols (E := E) l = .ok r := by
  induction l with
  | nil => exact ⟨_, rfl⟩
  | cons p l ih =>
    obtain ⟨r, hr⟩ := ih (fun q hq => h q (List.mem_cons_of_mem _ hq))
    obtain ⟨n, t⟩ := p
    cases n with
    | nil => exact absurd rfl (h _ List.mem_cons_self)
    | cons c cs => exact ⟨_, by rw [tagSymbols, tagSymbol, hr]⟩

theorem tagSymbol_head {n s : Str} (h : tagSymbol n = some s) : ∃ r, s = '%' :: r := by
  cases n with
  | nil => cases h
  | cons c cs =>
    rw [tagSymbol] at h
    split at h
    · rename_i e; cases h; exact ⟨cs, by rw [e]⟩
    · cases h; exact ⟨_, rfl⟩

theorem checkTagNames_ok (W : PyObjects O E) {l : List (Str × O)} :
    checkTagNames W l = .ok () ↔ ∀ p ∈ l, W.name p.2 = .ok (some p.1) := by
  induction l with
  | nil => simp [checkTagNames]
  | cons p l ih =>
    obtain ⟨n, t⟩ := p
    rw [checkTagNames]
    simp only [List.forall_mem_cons]
    split
    · rename_i e he; simp [he]
    · rename_i m hm
      split
      · rename_i e; rw [ih, hm, e]; simp
      · rename_i e; rw [hm]; simp [e]

theorem registry_tag_ok {W : PyObjects O E} {F : PyFunctions O} (hF : ∀ f, W.name (F.tagFunction f) = .ok (some (F.funName f)))
    {r r' : Registry O} {x : Registered O E} (h : r.tag W F x = .ok r') :
    ∃ n t, W.name t = .ok (some n) ∧ r' = { r with tags := r.tags.set n t } ∧
      ((x = .cls (.ok t)) ∨ (∃ f, x = .fn f ∧ t = F.tagFunction f) ∨ x = .obj t) := by
  have put : ∀ {t : O}, Registry.tag.put W r t = .ok r' →
      ∃ n, W.name t = .ok (some n) ∧ r' = { r with tags := r.tags.set n t } := by
    intro t h
    unfold Registry.tag.put at h
    split at h
    · cases h
    · cases h
    · rename_i n hn
      cases h
      exact ⟨n, hn, rfl⟩
  match x, h with
  | .cls (.error e), h => cases h
  | .cls (.ok t), h =>
    obtain ⟨n, h1, h2⟩ := put h
    exact ⟨n, t, h1, h2, .inl rfl⟩
  | .fn f, h =>
    cases h
    exact ⟨_, _, hF f, rfl, .inr (.inl ⟨f, rfl, rfl⟩)⟩
  | .obj t, h =>
    obtain ⟨n, h1, h2⟩ := put h
    exact ⟨n, t, h1, h2, .inr (.inr rfl)⟩

end
end Verif
