import Verif.Model.Dict
import Mathlib.Tactic.Common

/-! Lemmas on dictionaries. -/

namespace Verif.Dict
variable {K V : Type} [DecidableEq K]

theorem get?_set (d : Dict K V) (k : K) (v : V) (k' : K) :
    get? (set d k v) k' = if k = k' then some v else get? d k' := by
  induction d with
  | nil => simp [set, get?]
  | cons e d ih =>
    obtain ⟨a, b⟩ := e
    simp only [set]
    by_cases h : a = k
    · rw [if_pos h]
      simp only [get?]
      by_cases h2 : a = k'
      · have : k = k' := h ▸ h2
        simp [h2, this]
      · have : k ≠ k' := fun e => h2 (h.trans e)
        simp [h2, this]
    · rw [if_neg h]
      simp only [get?]
      rw [ih]
      by_cases h2 : a = k'
      · have : k ≠ k' := fun e => h (h2.trans e.symm)
        simp [h2, this]
      · simp [h2]

theorem get?_isSome_iff (d : Dict K V) (k : K) : (get? d k).isSome ↔ k ∈ keys d := by
  induction d with
  | nil => simp [get?, keys]
  | cons e d ih =>
    obtain ⟨a, b⟩ := e
    simp only [get?, keys, List.map_cons, List.mem_cons]
    by_cases h : a = k
    · simp [h]
    · rw [if_neg h, ih]
      constructor
      · exact Or.inr
      · rintro (e | h')
        · exact absurd e.symm h
        · exact h'

theorem get?_eq_none_iff (d : Dict K V) (k : K) : get? d k = none ↔ k ∉ keys d := by
  rw [← get?_isSome_iff]; cases get? d k <;> simp

theorem keys_set (d : Dict K V) (k : K) (v : V) :
    keys (set d k v) = if k ∈ keys d then keys d else keys d ++ [k] := by
  induction d with
  | nil => simp [set, keys]
  | cons e d ih =>
    obtain ⟨a, b⟩ := e
    simp only [set]
    by_cases h : a = k
    · simp [h, keys]
    · rw [if_neg h]
      have : keys ((a, b) :: d) = a :: keys d := rfl
      have h2 : keys ((a, b) :: set d k v) = a :: keys (set d k v) := rfl
      rw [this, h2, ih]
      by_cases h3 : k ∈ keys d
      · simp [h3]
      · simp [h3, Ne.symm h]

theorem keys_erase (d : Dict K V) (k : K) : keys (erase d k) = (keys d).erase k := by
  induction d with
  | nil => simp [erase, keys]
  | cons e d ih =>
    obtain ⟨a, b⟩ := e
    simp only [erase]
    have h1 : keys ((a, b) :: d) = a :: keys d := rfl
    rw [h1]
    by_cases h : a = k
    · simp [h]
    · have h2 : keys ((a, b) :: erase d k) = a :: keys (erase d k) := rfl
      rw [if_neg h, h2, ih, List.erase_cons_tail (by simpa using h)]

theorem get?_erase (d : Dict K V) (hd : (keys d).Nodup) (k k' : K) :
    get? (erase d k) k' = if k = k' then none else get? d k' := by
  induction d with
  | nil => simp [erase, get?]
  | cons e d ih =>
    obtain ⟨a, b⟩ := e
    have h1 : keys ((a, b) :: d) = a :: keys d := rfl
    rw [h1, List.nodup_cons] at hd
    simp only [erase]
    by_cases h : a = k
    · rw [if_pos h]
      simp only [get?]
      by_cases h2 : k = k'
      · rw [if_pos h2, get?_eq_none_iff, ← h2, ← h]; exact hd.1
      · rw [if_neg h2, if_neg (fun e => h2 (h.symm.trans e))]
    · rw [if_neg h]
      simp only [get?]
      rw [ih hd.2]
      by_cases h2 : a = k'
      · have : k ≠ k' := fun e => h (h2.trans e.symm)
        simp [h2, this]
      · simp [h2]

/-- A dictionary is determined by the order of its keys and its values. -/
theorem ext {d d' : Dict K V} (hn : (keys d).Nodup) (hk : keys d = keys d')
    (hg : ∀ k, get? d k = get? d' k) : d = d' := by
  induction d generalizing d' with
  | nil =>
    cases d' with
    | nil => rfl
    | cons e d' => simp [keys] at hk
  | cons e d ih =>
    cases d' with
    | nil => simp [keys] at hk
    | cons e' d' =>
      obtain ⟨a, b⟩ := e
      obtain ⟨a', b'⟩ := e'
      simp only [keys, List.map_cons, List.cons.injEq] at hk
      obtain ⟨h1, h2⟩ := hk
      subst h1
      have hn' : (a :: keys d).Nodup := hn
      rw [List.nodup_cons] at hn'
      have hb := hg a
      simp only [get?, if_true, Option.some.injEq] at hb
      subst hb
      congr 1
      apply ih hn'.2 h2
      intro k
      have := hg k
      simp only [get?] at this
      by_cases h : a = k
      · subst h
        rw [(get?_eq_none_iff d a).2 hn'.1, (get?_eq_none_iff d' a).2]
        intro hm
        exact hn'.1 (by unfold keys; rw [h2]; exact hm)
      · simpa [h] using this

theorem nodup_set {d : Dict K V} (h : (keys d).Nodup) (k : K) (v : V) : (keys (set d k v)).Nodup := by
  rw [keys_set]
  split
  · exact h
  · rename_i hk
    rw [List.nodup_append]
    refine ⟨h, by simp, ?_⟩
    intro a ha b hb
    simp only [List.mem_singleton] at hb
    rw [hb]; rintro rfl; exact hk ha

theorem nodup_update {d : Dict K V} (h : (keys d).Nodup) (ps : List (K × V)) :
    (keys (update d ps)).Nodup := by
  induction ps generalizing d with
  | nil => exact h
  | cons p ps ih => exact ih (nodup_set h _ _)

theorem update_append (d : Dict K V) (ps qs : List (K × V)) :
    update d (ps ++ qs) = update (update d ps) qs := by
  induction ps generalizing d with
  | nil => rfl
  | cons p ps ih => exact ih _

end Verif.Dict
